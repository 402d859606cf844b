import Verif.Proof.FrontSetup
import Verif.Model.FrontSetup
import Verif.Props.Load
import Verif.Props.Tracker

/-! # C95: the front ends are as large as the configuration says -/

set_option maxRecDepth 8000

namespace Verif.Setup
open Verif Verif.Config Verif.Vhost

variable {t : Tuning} {dev : Bytes} {mem : GMem} {es es' : List VEv} {v v' : Vq}

theorem bufSize_eq (ht : t.validate = true) : bufSize t = t.segCountMax * t.segSizeMax ∧ bufSize t ≤ 2 ^ 28 := by
  obtain ⟨_, _, h3, h4, _⟩ := (C47_accepted_iff t).mp ht
  have hle : t.segCountMax * t.segSizeMax ≤ 256 * 1048576 := Nat.mul_le_mul h4.2 h3.2
  unfold bufSize
  rw [Nat.mod_eq_of_lt (by omega)]
  exact ⟨rfl, by omega⟩

/-! ## Queues, threads and CPUs -/

/-- C95, queues: with an accepted `[tuning]` the backend announces `num_queues` queues, in its answer to the client and in the config
space, and each of them is served by exactly one thread, which serves no other; no thread is without a queue. -/
theorem C95_queues (ht : t.validate = true) (sectors : Nat) (hs : sectors < 2 ^ 64) :
    queues t = t.numQueues ∧
    fromLe (slice (Tracker.getConfig ⟨sectors, t.segSizeMax, t.segCountMax, queues t, t.writeThrough⟩ 0 60) 34 2) = t.numQueues ∧
    (masks t).length = t.numQueues ∧ ∀ i q, serves t i q = true ↔ i = q ∧ q < t.numQueues := by
  obtain ⟨h1, _, h3, h4, _⟩ := (C47_accepted_iff t).mp ht
  have hq : queues t = t.numQueues := Nat.mod_eq_of_lt (by omega)
  refine ⟨hq, ?_, by simp [masks], ?_⟩
  · have := (Tracker.C43_fields ⟨sectors, t.segSizeMax, t.segCountMax, queues t, t.writeThrough⟩ hs (by simp only; omega)
      (by simp only; omega) (by simp only [hq]; omega) 60 (Nat.le_refl _)).2.2.2.2.2
    rw [this, hq]
  · intro i q
    unfold serves masks
    rw [List.getElem?_map]
    by_cases hi : i < t.numQueues
    · rw [List.getElem?_range hi, Option.map_some, Option.getD_some, Nat.mod_eq_of_lt (by omega), Nat.testBit_two_pow]
      simp only [decide_eq_true_eq]
      constructor
      · rintro rfl; exact ⟨rfl, hi⟩
      · rintro ⟨rfl, _⟩; rfl
    · rw [List.getElem?_eq_none (by simp; omega)]
      simp only [Option.map_none, Option.getD_none, Nat.zero_testBit, Bool.false_eq_true, false_iff]
      rintro ⟨rfl, h⟩; exact hi h

/-- C95, CPUs: a thread that has a queue never fails to find its CPU; it asks for it on its first event, once, and never if none are
configured. -/
theorem C95_cpus (ht : t.validate = true) (i : Nat) (hi : i < t.numQueues) (k : Nat) :
    pins t i k false = .ok (match t.cpus with
      | some cpus => if k = 0 then [] else [cpus.getD i 0]
      | none => []) := by
  obtain ⟨_, _, _, _, h5, _⟩ := (C47_accepted_iff t).mp ht
  cases hc : t.cpus with
  | none =>
    have : ∀ k b, pins t i k b = .ok [] := by
      intro k
      induction k with
      | zero => intro b; rfl
      | succ k ih => intro b; simp only [pins, pin, hc, ih]; rfl
    exact this k false
  | some cpus =>
    have hl : i < cpus.length := by rw [h5 cpus hc]; exact hi
    have hg : cpus[i]? = some (cpus.getD i 0) := by
      rw [List.getD_eq_getElem?_getD, List.getElem?_eq_getElem hl]; rfl
    have later : ∀ k, pins t i k true = .ok [] := by
      intro k
      induction k with
      | zero => rfl
      | succ k ih => simp only [pins, pin, hc, hg, if_true, ih]; rfl
    cases k with
    | zero => rfl
    | succ k => simp only [pins, pin, hc, hg, Bool.false_eq_true, if_false, later]; simp

/-! ## Memory -/

/-- C95, memory, for a guest that keeps to what is announced: at most as many requests at once as the ring is long, each of at most
`seg_count_max` segments of at most `seg_size_max` bytes. However long it runs, the thread holds the buffers it started with, and their size
is the product of the three settings. Missing: guests that do not keep to it (`C95_false_released`). -/
theorem C95_memory_partial (ht : t.validate = true) (h : Run dev (thread t mem) es v)
    (hk : Keeps (ringMax t) t.segCountMax t.segSizeMax es) : allocated v = t.queueSize * (t.segCountMax * t.segSizeMax) := by
  obtain ⟨hb, hb'⟩ := bufSize_eq ht
  rw [allocated_eq, sizes_keeps (by omega) (Nat.le_of_eq hb.symm) h hk, sum_replicate, hb]

/-- C95, memory, for every guest: the buffers grow by at most the data of the chains the guest has put on the ring. -/
theorem C95_any_guest (ht : t.validate = true) (h : Run dev (thread t mem) es v) :
    allocated v ≤ t.queueSize * (t.segCountMax * t.segSizeMax) + asked es := by
  obtain ⟨hb, hb'⟩ := bufSize_eq ht
  rw [← hb]
  exact allocated_le (by omega) h

/-- C95, memory: nothing is ever given back while the thread runs. -/
theorem C95_never_less (ht : t.validate = true) (h : Run dev (thread t mem) es v) (hs : Step dev v es' v') : allocated v ≤ allocated v' := by
  obtain ⟨hb, hb'⟩ := bufSize_eq ht
  rcases sizes_step (run_inv (by omega) h) hs with h1 | ⟨u, hd, ds, rest, len, _, _, _, _, hsz⟩
  · rw [allocated_eq, allocated_eq, h1]; exact Nat.le_refl _
  · rw [allocated_eq, allocated_eq, hsz, List.sum_append]; exact Nat.le_add_right _ _

/-- C95 is false of guests that do not keep to the limits, whatever the settings: with well-formed reads into a single buffer the guest makes
the thread allocate any amount of memory (each read almost 4 GiB, though the guest has 4096 bytes of memory), and the thread keeps it when
every request has long been answered. -/
theorem C95_false_released (ht : t.validate = true) (bound : Nat) :
    ∃ (mem : GMem) (es : List VEv) (v : Vq), Run dev (thread t mem) es v ∧ (∀ a, mem.ok a = true → a < 4096) ∧
      (∀ u h ds, VEv.popped u h ds ∈ es → (dataDescs ds).length = 1) ∧
      (∀ u ∈ poppedIds es, u ∈ returnedIds es) ∧ (poppedIds es).length = bound ∧ bound * (2 ^ 32 - 512) ≤ allocated v := by
  obtain ⟨hb, hb'⟩ := bufSize_eq ht
  have hlt : bufSize t < hugeLen := by unfold hugeLen; omega
  have h32 : bufSize t < 2 ^ 32 := by omega
  obtain ⟨es, v, hr, _, hsz, _, hlen, hpop⟩ := huge_run dev t.queueSize (bufSize t) hlt bound
  have hI := run_inv h32 hr
  obtain ⟨es', v', r1, r2, r3, r4, _⟩ := drain h32 hr v.slots.length (by
    intro i hi
    cases hq : v.inflight i with
    | none => rfl
    | some q =>
      obtain ⟨s, hs⟩ := hI.infl i q hq
      have hs' := (held_some.mp hs).1
      rw [List.getElem?_eq_none hi] at hs'
      cases hs')
  refine ⟨_, _, _, r1, ?_, ?_, C38_all_returned h32 r1 r2, ?_, ?_⟩
  · intro a ha
    simpa [demoMem0] using ha
  · intro u h ds hm
    rcases List.mem_append.mp hm with hm | hm
    · rw [hpop u h ds hm, hugeChain, (demo_data _).1]; rfl
    · exfalso
      have : u ∈ poppedIds es' := List.mem_filterMap.mpr ⟨_, hm, rfl⟩
      rw [r4] at this; cases this
  · rw [poppedIds_append, r4, List.append_nil, hlen]
  · rw [allocated_eq, r3, hsz, List.sum_append, sum_replicate, sum_replicate]
    exact Nat.le_add_left _ _

/-! ## ublk -/

/-- C95, ublk: the device has the configured queues, depth and buffers and the size of the volume, and every queue finds its tracker, as large
as its depth. Missing: a queue size of 65536 (`C95_false_depth`). -/
theorem C95_ublk_partial (ht : t.validate = true) (hq : t.queueSize ≠ 65536) (sectors : Nat) (hs : sectors * 512 < 2 ^ 64) :
    ublkDevice t sectors = ⟨t.numQueues, t.queueSize, t.segSizeMax, sectors * 512⟩ ∧
      ∀ q, q < (ublkDevice t sectors).queues → ublkTracker t q = .ok (ublkDevice t sectors).depth := by
  obtain ⟨h1, ⟨k, hk, hk'⟩, _⟩ := (C47_accepted_iff t).mp ht
  have hle := Nat.pow_le_pow_right (show 1 ≤ 2 by decide) hk
  have hd : ublkDevice t sectors = ⟨t.numQueues, t.queueSize, t.segSizeMax, sectors * 512⟩ := by
    unfold ublkDevice
    rw [Nat.mod_eq_of_lt (show t.numQueues < 2 ^ 16 by omega), Nat.mod_eq_of_lt (show t.queueSize < 2 ^ 16 by omega), Nat.mod_eq_of_lt hs]
  refine ⟨hd, fun q hlt => ?_⟩
  rw [hd] at hlt ⊢
  unfold ublkTracker trackers
  rw [List.getElem?_map, List.getElem?_range hlt]
  rfl

/-- C95, vhost: every thread's tracker is as large as the ring may be. -/
theorem C95_vhost_trackers (t : Tuning) (q : Nat) : vhostTracker t q = ringMax t := by
  unfold vhostTracker trackers ringMax
  rw [List.getElem?_map]
  cases (List.range t.numQueues)[q]? <;> rfl

/-- C95 is false of ublk devices with the largest queue size that is accepted: the kernel is asked for a depth of zero. -/
theorem C95_false_depth (sectors : Nat) :
    ∃ t : Tuning, t.validate = true ∧ t.queueSize = 65536 ∧ (ublkDevice t sectors).depth = 0 :=
  ⟨{ Tuning.default with queueSize := 65536 }, by decide +kernel, rfl, rfl⟩

/-! ## Cases -/

/-- Four queues pinned to four CPUs. -/
def demoTuning : Tuning := { Tuning.default with numQueues := 4, queueSize := 128, cpus := some [8, 9, 10, 11] }

theorem demo_valid : demoTuning.validate = true := by decide +kernel

/-- Queue 2 is served by thread 2, on CPU 10. -/
example : serves demoTuning 2 2 = true ∧ serves demoTuning 1 2 = false ∧ pins demoTuning 2 5 false = .ok [10] :=
  ⟨((C95_queues demo_valid 100 (by decide)).2.2.2 2 2).mpr ⟨rfl, by decide⟩, by decide, C95_cpus demo_valid 2 (by decide) 5⟩

/-- A guest that reads 512 bytes into two buffers keeps to the limits, and 32 MiB remain allocated. -/
example : ∃ es v, Run [65] (thread demoTuning (demoMem0 0 3)) es v ∧ Keeps 128 4 65536 es ∧ poppedIds es = [0] ∧ allocated v = 128 * (4 * 65536) := by
  have hp : parse (demoMem0 0 3) (demoChain [(1000, 500, true), (2000, 12, true)]) = .ok ⟨.in, [(1000, 500), (2000, 12)], 3, 4000⟩ := demo_read_parsed
  obtain ⟨p, hc⟩ : ∃ p, processChain [65] (thread demoTuning (demoMem0 0 3)) 7 (demoChain [(1000, 500, true), (2000, 12, true)]) = .ok p := by
    unfold processChain
    simp only [thread, Vq.init, hp, processRead]
    rw [if_neg (by decide)]
    exact ⟨_, rfl⟩
  obtain ⟨v, es⟩ := p
  have hr := Run.snoc (.nil _) (Step.pop _ _ 7 _ _ (by decide) hc)
  obtain ⟨_, _, _, he⟩ := chain_spec hc (by
    intro s hs
    simp only [thread, Vq.init, List.mem_replicate] at hs
    rw [hs.2, zeros_length]; decide)
  have hnot : ∀ e ∈ es, ∀ u h ds, e ≠ VEv.popped u h ds := by
    intro e hm u h ds heq
    subst heq
    cases he <;> simp at hm
  have hk : Keeps 128 4 65536 ([] ++ VEv.popped (thread demoTuning (demoMem0 0 3)).popped 7 (demoChain [(1000, 500, true), (2000, 12, true)]) :: es) := by
    intro before after u h ds heq
    rw [List.nil_append] at heq
    cases before with
    | nil =>
      simp only [List.nil_append, List.cons.injEq, VEv.popped.injEq] at heq
      obtain ⟨⟨_, _, rfl⟩, _⟩ := heq
      refine ⟨by decide, ?_, ?_⟩
      · rw [(demo_data _).1]; decide
      · rw [(demo_data _).1]; decide
    | cons b bs =>
      simp only [List.cons_append, List.cons.injEq] at heq
      exact absurd rfl (hnot _ (by rw [heq.2]; simp) u h ds)
  refine ⟨_, v, hr, hk, ?_, C95_memory_partial demo_valid hr hk⟩
  rw [List.nil_append]
  have : poppedIds es = [] := by
    unfold poppedIds
    rw [List.filterMap_eq_nil_iff]
    intro e hm
    cases e with
    | popped u h ds => exact absurd rfl (hnot _ hm u h ds)
    | dev => rfl
    | returned => rfl
    | signal => rfl
  show (thread demoTuning (demoMem0 0 3)).popped :: poppedIds es = [0]
  rw [this]; rfl

end Verif.Setup
