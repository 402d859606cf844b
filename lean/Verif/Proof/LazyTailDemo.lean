import Verif.Proof.LazyTail
import Verif.Proof.LazyDemo
/-! The run beside C17: seventeen stripes are fetched one after another, the image lacks the last sector. -/

set_option maxRecDepth 8000

namespace Verif.Lazy
open Verif Verif.Metadata Verif.Disk

/-- Seventeen stripes of two sectors; the image has 33 sectors, sector `x` holding `100 + x`. -/
def tailCfg : Cfg Nat :=
  { ss := 2, n := 17, tsec := 34, msec := 2, hs := fun k => decide (k < 17), src := fun x => if x < 33 then some (100 + x) else none,
    srcHas := fun k => decide (k < 17), srcStripes := 17, image := false, track := false, autofetch := true }

def tailMeta : Meta := Meta.new 1 17 17

theorem tail_size : metadataSize tailMeta = 1024 := by
  simp [tailMeta, metadataSize, headerSectorCount, Meta.new, divCeil]

theorem tail_headers : tailMeta.headers = List.replicate 17 4 := by decide

theorem tail_bootable : ∃ mv, Bootable tailCfg (List.replicate 17 4) mv := by
  rw [← tail_headers]
  obtain ⟨b, hb, -⟩ := C01_save_load tailMeta (zeros 1024) ⟨rfl, rfl, rfl, by decide, by simp [tailMeta, Meta.new]⟩
    (by rw [zeros_length, tail_size]; exact Nat.le_refl _) (by rw [zeros_length])
  exact ⟨_, formatted_bootable (c := tailCfg) (shift := 1) (base := 17) (image := 17) (by decide) (by decide)
    (by have := tail_size; unfold tailMeta at this; rw [this]; decide) hb (by decide) rfl
    (by intro k; simp [tailCfg]) (by decide)⟩

theorem sentBuf_plain (k : Nat) (buf : Nat → Nat) : sentBuf tailCfg k buf = buf := by
  funext i; unfold sentBuf; split <;> rfl

/-- Local disk before: every sector holds 7; the buffers hold 0. -/
def tailBoot (mv : Nat → Bytes) : Sys Nat := Sys.boot tailCfg (List.replicate 17 4) (fun _ => 7) mv (fun _ _ => 0)

/-- Stripes below `k` have been fetched and announced, everything else is idle. -/
structure Cyc (k : Nat) (s : Sys Nat) : Prop where
  queue : s.fe.queue = []
  autoq : s.fe.autoq = (List.range (17 - k)).map (k + ·)
  states : ∀ j, k ≤ j → s.fe.states j = none
  free : s.fe.free = (List.range 16).map fun i => (k + i) % 16
  dis : s.fe.disconnected = false
  fin : s.fe.finished = []
  flq : s.fl.queue = []
  flfree : s.fl.free = 16
  busy : s.fl.busy 1 = false
  hdrs : ∀ j, k ≤ j → j < 17 → s.fl.hdrs.getD j 0 = 4
  len : s.fl.hdrs.length = 17
  fs : ∀ j, k ≤ j → j < 17 → s.sh.fs j = .notFetched

theorem rep17 {j : Nat} (hj : j < 17) : (List.replicate 17 (4 : UInt8)).getD j 0 = 4 := by
  have : ∀ j : Fin 17, (List.replicate 17 (4 : UInt8)).getD j.1 0 = 4 := by decide
  exact this ⟨j, hj⟩

theorem Cyc.boot (mv : Nat → Bytes) : Cyc 0 (tailBoot mv) where
  queue := rfl
  autoq := by simp [tailBoot, Sys.boot, tailCfg]
  states := fun _ _ => rfl
  free := by show List.range 16 = _; decide
  dis := rfl
  fin := rfl
  flq := rfl
  flfree := rfl
  busy := rfl
  hdrs := fun j _ hj => rep17 hj
  len := by simp [tailBoot, Sys.boot]
  fs := fun j _ hj => by
    show loadFs _ = _
    rw [rep17 hj]
    decide


/-- `s` can be reached with the guest seeing nothing, no failed read leaving anything new in a buffer, and buffers
allocated with zeros. -/
def TReach (c : Cfg Nat) (s0 s : Sys Nat) : Prop := ∃ ls, Tame c (· = 0) s0 ls s ∧ visible ls = []

theorem TReach.step {c : Cfg Nat} {s0 s s' : Sys Nat} {a : Act Nat} {ls : List (Lab Nat)} (h : TReach c s0 s) (hs : Step c s a ls s')
    (ht : a.tame c s := by trivial) (hv : visible ls = [] := by rfl) : TReach c s0 s' := by
  obtain ⟨l, h1, h2⟩ := h
  exact ⟨_, h1.step hs ht, by rw [visible_append, h2, hv]; rfl⟩

/-- A stripe is put on the queue and read from the source. -/
theorem cyc_read {c : Cfg Nat} {s0 s : Sys Nat} {k b : Nat} {ks free : List Nat} (r : TReach c s0 s) (ha : c.autofetch = true)
    (hsrc : c.srcHas k = true) (hq : s.fe.queue = []) (haq : s.fe.autoq = k :: ks) (hl : s.sh.isLocal k = false)
    (hst : s.fe.states k = none) (hf : s.fe.free = b :: free) (hd : s.fe.disconnected = false) :
    ∃ s', TReach c s0 s' ∧ s'.fe.queue = [] ∧ s'.fe.autoq = ks ∧ s'.fe.states = upd (upd s.fe.states k (some .queued)) k (some .fetching) ∧
      s'.fe.free = free ∧ s'.fe.alloc k = some b ∧ s'.fe.bufs = upd s.fe.bufs b (sentBuf c k (fillBuf c k (s.fe.bufs b))) ∧ s'.fe.disconnected = false ∧
      s'.fe.finished = s.fe.finished ∧ s'.fl = s.fl ∧ s'.sh = s.sh ∧ s'.m = s.m ∧
      s'.t.ops (.fetch k) = some (.write (k * c.ss) (stripeLen c k) (fun x => fillBuf c k (s.fe.bufs b) (x - k * c.ss)) fun _ => false) := by
  have st := Step.autofetch (c := c) s k _ ha hq haq
  unfold handleFetch at st
  rw [if_neg (by simp [hl]), if_neg (by simp [hst])] at st
  have r1 : TReach c s0 _ := r.step st
  obtain ⟨s1, hs1, r1⟩ : ∃ s1, _ = s1 ∧ TReach c s0 s1 := ⟨_, rfl, r1⟩
  have e : startFetch c s1 true = some ({ s1 with fe := { s1.fe with
      queue := [], free := free, alloc := upd s1.fe.alloc k (some b), states := upd s1.fe.states k (some .fetching), srcIn := upd s1.fe.srcIn k true } },
      [.sourceRead k]) := by
    unfold startFetch
    simp only [← hs1, hq, hf, List.nil_append, hd, hsrc, Bool.not_false, Bool.and_self, if_true]
  have r2 : TReach c s0 _ := r1.step (Step.startFetch _ true _ _ e)
  obtain ⟨s2, hs2, r2⟩ : ∃ s2, _ = s2 ∧ TReach c s0 s2 := ⟨_, rfl, r2⟩
  have hb : s2.fe.bufs = s.fe.bufs := by rw [← hs2, ← hs1]
  have e2 : sourceDone c s2 k true true (fun _ => 0) = some ({ s2 with
      fe := { s2.fe with srcIn := upd s2.fe.srcIn k false, bufs := upd s2.fe.bufs b (sentBuf c k (fillBuf c k (s.fe.bufs b))) }
      t := s2.t.issueWrite (.fetch k) (k * c.ss) (stripeLen c k) fun x => fillBuf c k (s.fe.bufs b) (x - k * c.ss) }, [.fetchWrite k]) := by
    have h1 : s2.fe.srcIn k = true := by rw [← hs2]; exact upd_same _ _ _
    have h2 : s2.fe.alloc k = some b := by rw [← hs2]; exact upd_same _ _ _
    unfold sourceDone
    simp only [h1, h2, if_true, hb]
  have r3 : TReach c s0 _ := r2.step (Step.sourceDone _ k true true (fun _ => 0) _ _ e2) (fun h => by cases h)
  refine ⟨_, r3, ?_, ?_, ?_, ?_, ?_, ?_, ?_, ?_, ?_, ?_, ?_, ?_⟩
  · rw [← hs2]
  · rw [← hs2, ← hs1]
  · rw [← hs2, ← hs1]
  · rw [← hs2]
  · rw [← hs2]; exact upd_same _ _ _
  · show upd s2.fe.bufs b _ = _; rw [hb]
  · rw [← hs2, ← hs1]; exact hd
  · rw [← hs2, ← hs1]
  · rw [← hs2, ← hs1]
  · rw [← hs2, ← hs1]
  · rw [← hs2, ← hs1]
  · exact ops_issueWrite_same _ _ _ _ _

/-- It is written and flushed on the target. -/
theorem cyc_write {c : Cfg Nat} {s0 s : Sys Nat} {k b off : Nat} {data : Nat → Nat} (r : TReach c s0 s)
    (hop : s.t.ops (.fetch k) = some (.write off 2 data fun _ => false)) (hst : s.fe.states k = some .fetching) (ha : s.fe.alloc k = some b)
    (hfin : s.fe.finished = []) :
    ∃ s', TReach c s0 s' ∧ s'.fe.queue = s.fe.queue ∧ s'.fe.autoq = s.fe.autoq ∧
      s'.fe.states = upd (upd s.fe.states k (some .flushing)) k (some .fetched) ∧
      s'.fe.free = s.fe.free ++ [b] ∧ s'.fe.bufs = s.fe.bufs ∧ s'.fe.disconnected = s.fe.disconnected ∧
      s'.fe.finished = [] ∧ s'.fl = { s.fl with queue := s.fl.queue ++ [(k, FETCHED)] } ∧ s'.sh = s.sh ∧ s'.m = s.m ∧
      s'.t.vol (off + 1) = data (off + 1) := by
  have r1 := r.step (Step.execDataW (x := off) hop ⟨Nat.le_refl _, by omega⟩)
  have r2 := r1.step (Step.execDataW (o := .fetch k) (x := off + 1) (upd_same _ _ _) ⟨by omega, by omega⟩)
  obtain ⟨s2, hs2, r2⟩ : ∃ s2, _ = s2 ∧ TReach c s0 s2 := ⟨_, rfl, r2⟩
  have h2 : s2.t.ops (.fetch k) = some (.write off 2 data (upd (upd (fun _ => false) off true) (off + 1) true)) := by
    rw [← hs2]; exact upd_same _ _ _
  have hv : s2.t.vol (off + 1) = data (off + 1) := by rw [← hs2]; exact upd_same _ _ _
  have hfe : s2.fe = s.fe := by rw [← hs2]
  have e : targetDone s2 k true true = ({ s2 with
      t := (s2.t.complete (.fetch k) true).issueFlush (.fetch k)
      fe := { s2.fe with states := upd s2.fe.states k (some .flushing) } }, []) := by
    unfold targetDone
    simp only [hfe, hst, if_true]
  have st := Step.targetDone (c := c) s2 k true true ⟨_, h2, fun _ x hx => by
    obtain ⟨h1, h2⟩ := hx
    by_cases hx : x = off + 1
    · subst hx; exact upd_same _ _ _
    · rw [upd_ne _ _ hx, show x = off by omega]; exact upd_same _ _ _⟩
  rw [e] at st
  have r3 := r2.step st
  obtain ⟨s3, hs3, r3⟩ : ∃ s3, _ = s3 ∧ TReach c s0 s3 := ⟨_, rfl, r3⟩
  have h3 : ∃ sn, s3.t.ops (.fetch k) = some (.flush sn) := by rw [← hs3]; exact ⟨_, upd_same _ _ _⟩
  obtain ⟨sn, h3⟩ := h3
  have hst3 : s3.fe.states k = some .flushing := by rw [← hs3]; exact upd_same _ _ _
  have ha3 : s3.fe.alloc k = some b := by rw [← hs3, ← hs2]; exact ha
  have e : targetDone s3 k true true = ({ s3 with
      t := s3.t.complete (.fetch k) true
      fe := { s3.fe with
        alloc := upd s3.fe.alloc k none, free := s3.fe.free ++ [b], states := upd s3.fe.states k (some .fetched),
        retries := upd s3.fe.retries k 0, finished := s3.fe.finished ++ [(k, true)] } }, []) := by
    unfold targetDone
    simp only [hst3, if_true]
    unfold fetchCompleted Fetcher.release
    simp only [ha3, if_true]
  have st := Step.targetDone (c := c) s3 k true true ⟨_, h3, fun _ => trivial⟩
  rw [e] at st
  have r4 := r3.step st
  have hf : s3.fe.finished = [] := by rw [← hs3, ← hs2]; exact hfin
  have r5 := r4.step (Step.takeFinished _ k true [] (by show s3.fe.finished ++ _ = _; rw [hf]; rfl))
  refine ⟨_, r5, ?_, ?_, ?_, ?_, ?_, ?_, ?_, ?_, ?_, ?_, ?_⟩
  · rw [← hs3, ← hs2]
  · rw [← hs3, ← hs2]
  · rw [← hs3, ← hs2]
  · rw [← hs3, ← hs2]
  · rw [← hs3, ← hs2]
  · rw [← hs3, ← hs2]
  · rfl
  · rw [← hs3, ← hs2]; rfl
  · rw [← hs3, ← hs2]
  · rw [← hs3, ← hs2]
  · show s3.t.vol (off + 1) = _
    rw [← hs3]; exact hv

/-- And announced. -/
theorem cyc_meta {c : Cfg Nat} {s0 s : Sys Nat} {k n : Nat} (h : TReach c s0 s) (hk : stripeIdToSector k = 1)
    (h1 : s.fl.queue = [(k, FETCHED)]) (h2 : s.fl.free = n + 1) (h3 : s.fl.busy 1 = false) (h4 : s.fl.hdrs.getD k 0 = 4) :
    ∃ s', TReach c s0 s' ∧ s'.fl.queue = [] ∧ s'.fl.free = n + 1 ∧ s'.fl.busy 1 = false ∧
      s'.fl.hdrs = s.fl.hdrs.set k 5 ∧ s'.sh.fs = upd s.sh.fs k .fetched ∧ s'.t = s.t ∧ s'.fe = s.fe := by
  have r1 := h.step (Step.startMeta _ true _ (startMeta_go h1 h2 (by rw [hk]; exact h3) (by rw [h4]; decide)))
  rw [h4, hk] at r1
  have r2 := r1.step (Step.execMetaW (k := k) (x := 1) (ops_issueWrite_same _ _ _ _ _) ⟨Nat.le_refl _, by decide⟩)
  obtain ⟨s2, hs2, r2⟩ : ∃ s2, _ = s2 ∧ TReach c s0 s2 := ⟨_, rfl, r2⟩
  have hop : ∃ data, s2.m.ops k = some (.write 1 1 data (upd (fun _ => false) 1 true)) := by rw [← hs2]; exact ⟨_, upd_same _ _ _⟩
  obtain ⟨data, hop⟩ := hop
  have hu : s2.fl.updates k = some { stage := .writing, header := 5, mask := FETCHED, sector := 1 } := by
    rw [← hs2]; exact upd_same _ _ _
  have e : metaDone s2 k true true = { s2 with
      m := (s2.m.complete k true).issueFlush k
      fl := { s2.fl with updates := upd s2.fl.updates k (some { stage := .flushing, header := 5, mask := FETCHED, sector := 1 }), free := s2.fl.free + 1 } } := by
    unfold metaDone
    simp only [hu, if_true]
  have st := Step.metaDone (c := c) s2 k true true ⟨_, hop, fun _ x hx => by
    obtain ⟨h1, h2⟩ := hx
    rw [show x = 1 by omega]; exact upd_same _ _ _⟩
  rw [e] at st
  have r3 := r2.step st
  have r4 := r3.step (Step.metaFlushed (k := k) true false (upd_same _ _ _) rfl ⟨_, upd_same _ _ _, fun _ => trivial⟩ (by decide) (by decide))
  refine ⟨_, r4, ?_, ?_, ?_, ?_, ?_, ?_, ?_⟩
  · rw [← hs2]
  · rw [← hs2]
  · show upd s2.fl.busy 1 false 1 = false
    rw [upd_same]
  · rw [← hs2]; rfl
  · rw [← hs2]; rfl
  · rw [← hs2]
  · rw [← hs2]

theorem upd_upd' {α β : Type} [DecidableEq α] (f : α → β) (a : α) (x y : β) : upd (upd f a x) a y = upd f a y := by
  funext b
  by_cases h : b = a
  · subst h; simp
  · simp [upd_ne _ _ h]

/-- One stripe is fetched and announced. -/
theorem Cyc.next {s0 s : Sys Nat} {k : Nat} (h : Cyc k s) (hk : k < 17) (r : TReach tailCfg s0 s) :
    ∃ s', TReach tailCfg s0 s' ∧ Cyc (k + 1) s' ∧ s'.sh.fs k = .fetched ∧
      s'.fe.bufs = upd s.fe.bufs (k % 16) (fillBuf tailCfg k (s.fe.bufs (k % 16))) ∧
      s'.t.vol (k * 2 + 1) = fillBuf tailCfg k (s.fe.bufs (k % 16)) 1 := by
  have haq : s.fe.autoq = k :: (List.range (17 - (k + 1))).map (k + 1 + ·) := by
    rw [h.autoq, show 17 - k = (17 - (k + 1)) + 1 by omega, List.range_succ_eq_map]
    simp only [List.map_cons, List.map_map, Nat.add_zero, List.cons.injEq, true_and]
    apply List.map_congr_left
    intro a _; simp; omega
  have hfree : s.fe.free = (k % 16) :: (List.range 15).map fun i => (k + 1 + i) % 16 := by
    have : ∀ n, (List.range (n + 1)).map (fun i => (k + i) % 16) = (k % 16) :: (List.range n).map fun i => (k + 1 + i) % 16 := by
      intro n
      rw [List.range_succ_eq_map]
      simp only [List.map_cons, List.map_map, Nat.add_zero, List.cons.injEq, true_and]
      apply List.map_congr_left
      intro a _; simp; omega
    rw [h.free]; exact this 15
  have hfree' : ((List.range 15).map fun i => (k + 1 + i) % 16) ++ [k % 16] = (List.range 16).map fun i => (k + 1 + i) % 16 := by
    rw [List.range_succ (n := 15), List.map_append]
    simp only [List.map_cons, List.map_nil, List.append_cancel_left_eq, List.cons.injEq, and_true]
    omega
  have hl : stripeLen tailCfg k = 2 := by simp [stripeLen, tailCfg]; omega
  obtain ⟨s1, r1, a1, a2, a3, a4, a5, a6, a7, a8, a9, a10, a11, a12⟩ := cyc_read r rfl (by simp [tailCfg, hk]) h.queue haq
    (by simp [Shared.isLocal, h.fs k (Nat.le_refl _) hk]) (h.states k (Nat.le_refl _)) hfree h.dis
  rw [hl] at a12
  obtain ⟨s2, r2, b1, b2, b3, b4, b5, b6, b7, b8, b9, b10, b11⟩ := cyc_write r1 a12 (by rw [a3]; exact upd_same _ _ _) a5 (by rw [a8]; exact h.fin)
  obtain ⟨s3, r3, c1, c2, c3, c4, c5, c6, c7⟩ := cyc_meta (k := k) (n := 15) r2 (by unfold stripeIdToSector; omega)
    (by rw [b8, a9]; simp [h.flq]) (by rw [b8, a9]; exact h.flfree) (by rw [b8, a9]; exact h.busy)
    (by rw [b8, a9]; exact h.hdrs k (Nat.le_refl _) hk)
  have hst : ∀ j, k + 1 ≤ j → s2.fe.states j = s.fe.states j := by
    intro j hj
    rw [b3, a3, upd_upd', upd_upd', upd_upd', upd_ne _ _ (by omega)]
  refine ⟨s3, r3, ⟨by rw [c7, b1, a1], by rw [c7, b2, a2], fun j hj => ?_, by rw [c7, b4, a4, hfree'], by rw [c7, b6, a7], by rw [c7, b7], c1, c2, c3,
    fun j hj hj' => ?_, ?_, fun j hj hj' => ?_⟩, ?_, by rw [c7, b5, a6, sentBuf_plain], ?_⟩
  · rw [c7, hst j hj]; exact h.states j (by omega)
  · rw [c4, b8, a9, getD_set _ _ _ _ (by rw [h.len]; exact hk), if_neg (by omega)]
    exact h.hdrs j (by omega) hj'
  · rw [c4, List.length_set, b8, a9]; exact h.len
  · rw [c5, b9, a10, upd_ne _ _ (by omega)]; exact h.fs j (by omega) hj'
  · rw [c5]; exact upd_same _ _ _
  · rw [c6, show k * 2 + 1 = k * tailCfg.ss + 1 from rfl, b11]
    show fillBuf _ _ _ (k * tailCfg.ss + 1 - k * tailCfg.ss) = _
    rw [Nat.add_sub_cancel_left]

/-- After the first stripe, and until its buffer is used again, the buffer holds its data. -/
theorem tail_mid (mv : Nat → Bytes) (k : Nat) (hk : k < 16) :
    ∃ s, TReach tailCfg (tailBoot mv) s ∧ Cyc (k + 1) s ∧ s.fe.bufs 0 1 = 101 := by
  induction k with
  | zero =>
    obtain ⟨s, r, h, -, h2, -⟩ := (Cyc.boot mv).next (by decide) ⟨[], .nil _, rfl⟩
    exact ⟨s, r, h, by rw [h2]; rfl⟩
  | succ k ih =>
    obtain ⟨s, r, h, hb⟩ := ih (by omega)
    obtain ⟨s', r', h', -, h2, -⟩ := h.next (by omega) r
    exact ⟨s', r', h', by rw [h2, upd_ne _ _ (by omega)]; exact hb⟩

/-- All stripes are local, and the sector past the end of the image holds the second sector of the first stripe. -/
theorem tail_run (mv : Nat → Bytes) : ∃ s, TReach tailCfg (tailBoot mv) s ∧ s.sh.fs 16 = .fetched ∧ s.t.vol 33 = 101 := by
  obtain ⟨s, r, h, hb⟩ := tail_mid mv 15 (by decide)
  obtain ⟨s', r', -, h1, -, h2⟩ := h.next (by decide) r
  exact ⟨s', r', h1, by rw [show (33 : Nat) = (15 + 1) * 2 + 1 from rfl, h2]; exact hb⟩

end Verif.Lazy
