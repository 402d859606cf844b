import Verif.Proof.LazyMeta

/-! The fetcher invariant is kept by every step. -/

set_option maxRecDepth 8000

namespace Verif.Lazy
open Verif Verif.Metadata Verif.Disk

variable {D : Type}

theorem StripeOk.fetched_settled {c : Cfg D} {s : Sys D} {k : Nat} (_h : StripeOk c s k) (hs : settled s k) :
    s.sh.isLocal k = true ∨ s.fe.states k = some .fetched := hs

/-- A busy stripe is not settled. -/
theorem StripeOk.not_settled {c : Cfg D} {s : Sys D} {k : Nat} (h : StripeOk c s k)
    (hk : s.t.kinds (.fetch k) ≠ none) : ¬ settled s k := by
  obtain ⟨h1, -, -, -, h2⟩ := h.busy hk
  rintro (h3 | h3)
  · rw [h1] at h3; simp at h3
  · rcases h2 with ⟨h2, -⟩ | ⟨h2, -⟩ <;> rw [h2] at h3 <;> simp at h3

theorem startFetch_inv {c : Cfg D} {s s' : Sys D} {ls : List (Lab D)} {b : Bool} (h : FetchInv c s)
    (hs : startFetch c s b = some (s', ls)) : FetchInv c s' := by
  unfold startFetch at hs
  split at hs
  · rename_i k q bu free hq hf
    have hk0 := (h.ok k).queued (by rw [hq]; simp)
    have hnd := h.nodup
    rw [hq] at hnd
    obtain ⟨hkq, hqn⟩ := List.nodup_cons.mp hnd
    have hmem : ∀ k', k' ≠ k → (k' ∈ q ↔ k' ∈ s.fe.queue) := by
      intro k' hne; rw [hq]; simp [hne]
    have hnofin : (k, true) ∉ s.fe.finished := by
      intro hf
      have := h.fin k hf
      rw [hk0.2.2.2.2] at this; simp at this
    have hkn : k < c.n := h.bound k (by rw [hk0.2.2.2.2]; simp)
    simp only at hs
    split at hs
    · simp only [Option.some.injEq, Prod.mk.injEq] at hs
      obtain ⟨rfl, -⟩ := hs
      refine ⟨?_, hqn, ?_, ?_, h.mbound, h.wbound, h.abound⟩
      · intro k'
        by_cases hke : k' = k
        · subst hke
          simp only [StripeOk, StripeOkC, upd_same]
          exact ⟨hkq, by simp, hk0.1, Or.inl ⟨trivial, hk0.2.2.2.1⟩⟩
        · exact (h.ok k').congr (by simp [upd_ne _ _ hke]) (hmem k' hke) (by simp [upd_ne _ _ hke])
            (by simp [upd_ne _ _ hke]) rfl rfl
      · intro k' hf'
        have hke : k' ≠ k := by rintro rfl; exact hnofin hf'
        simp only [upd_ne _ _ hke]
        exact h.fin k' hf'
      · intro k' hs'
        by_cases hke : k' = k
        · subst hke; exact hkn
        · simp only [upd_ne _ _ hke] at hs'; exact h.bound k' hs'
    · simp only [Option.some.injEq, Prod.mk.injEq] at hs
      obtain ⟨rfl, -⟩ := hs
      apply fetchCompleted_inv
      refine ⟨?_, hqn, fun k' _ hf' => h.fin k' hf', hnofin, h.bound, h.mbound, h.wbound, h.abound, hkq, hk0.2.2.1,
        hk0.2.2.2.1, hk0.1, hkn⟩
      intro k' hke
      exact (h.ok k').congr rfl (hmem k' hke) (by simp [upd_ne _ _ hke]) rfl rfl rfl
  · simp at hs

theorem sourceDone_inv {c : Cfg D} {s s' : Sys D} {ls : List (Lab D)} {k : Nat} {ok b : Bool} {g : Nat → D}
    (h : FetchInv c s) (hs : sourceDone c s k ok b g = some (s', ls)) : FetchInv c s' := by
  unfold sourceDone at hs
  split at hs
  · rename_i hsi
    have hk0 := (h.ok k).src hsi
    have hnofin : (k, true) ∉ s.fe.finished := by
      intro hf
      have := h.fin k hf
      rw [hk0.2.2.2.2] at this; simp at this
    have hkn : k < c.n := h.bound k (by rw [hk0.2.2.2.2]; simp)
    have hend : ∀ bufs, Ending c { s with fe := { s.fe with srcIn := upd s.fe.srcIn k false, bufs := bufs } } k := by
      intro bufs
      refine ⟨?_, h.nodup, fun k' _ hf' => h.fin k' hf', hnofin, h.bound, h.mbound, h.wbound, h.abound, hk0.2.2.1,
        by simp, hk0.2.2.2.1, hk0.1, hkn⟩
      intro k' hke
      exact (h.ok k').congr rfl Iff.rfl rfl (by simp [upd_ne _ _ hke]) rfl rfl
    simp only at hs
    split at hs
    · rename_i hal
      exact absurd hal hk0.2.1
    · rename_i bu hal
      split at hs
      · split at hs
        · simp only [Option.some.injEq, Prod.mk.injEq] at hs
          obtain ⟨rfl, -⟩ := hs
          refine ⟨?_, h.nodup, h.fin, h.bound, h.mbound, h.wbound, h.abound⟩
          intro k'
          by_cases hke : k' = k
          · subst hke
            have h1 : (s.t.issueWrite (.fetch k') (k' * c.ss) (stripeLen c k')
                (fun x => fillBuf c k' (s.fe.bufs bu) (x - k' * c.ss))).kinds (.fetch k') =
                some (.write (k' * c.ss) (stripeLen c k')) := by rw [kinds_issueWrite]; simp
            simp only [StripeOk, StripeOkC, hk0.2.2.2.2, upd_same, h1]
            exact ⟨hk0.2.2.1, hk0.2.1, hk0.1, Or.inr ⟨trivial, trivial⟩⟩
          · exact (h.ok k').congr rfl Iff.rfl rfl (by simp [upd_ne _ _ hke])
              (by rw [kinds_issueWrite]; simp [hke]) rfl
        · simp only [Option.some.injEq] at hs
          have := fetchCompleted_inv (hend (upd s.fe.bufs bu (sentBuf c k (fillBuf c k (s.fe.bufs bu))))) false
          rw [hs] at this; exact this
      · simp only [Option.some.injEq] at hs
        have := fetchCompleted_inv (hend (upd s.fe.bufs bu g)) false
        rw [hs] at this; exact this
  · simp at hs

theorem targetDone_inv {c : Cfg D} {s : Sys D} {k : Nat} {ok b : Bool} (h : FetchInv c s)
    (hm : s.t.mayComplete (.fetch k) ok) : FetchInv c (targetDone s k ok b).1 := by
  obtain ⟨op, hop, -⟩ := hm
  have hk0 := (h.ok k).busy (by rw [kinds_of_ops hop]; simp)
  have hne : s.fe.states k ≠ none := by rcases hk0.2.2.2.2 with ⟨h1, -⟩ | ⟨h1, -⟩ <;> rw [h1] <;> simp
  have hnofin : (k, true) ∉ s.fe.finished := by
    intro hf
    have := h.fin k hf
    rcases hk0.2.2.2.2 with ⟨h1, -⟩ | ⟨h1, -⟩ <;> rw [h1] at this <;> simp at this
  have hend : Ending c { s with t := s.t.complete (.fetch k) ok } k := by
    refine ⟨?_, h.nodup, fun k' _ hf' => h.fin k' hf', hnofin, h.bound, h.mbound, h.wbound, h.abound, hk0.2.2.1,
        hk0.2.2.2.1, by simp [kinds_complete], hk0.1, h.bound k hne⟩
    intro k' hke
    exact (h.ok k').congr rfl Iff.rfl rfl rfl (by simp [kinds_complete, hke]) rfl
  unfold targetDone
  simp only
  split
  · split
    · rename_i hst
      split
      · refine ⟨?_, h.nodup, ?_, ?_, h.mbound, h.wbound, h.abound⟩
        · intro k'
          by_cases hke : k' = k
          · subst hke
            have h1 : ((s.t.complete (.fetch k') ok).issueFlush (.fetch k')).kinds (.fetch k') = some .flush := by
              rw [kinds_issueFlush]; simp
            simp only [StripeOk, StripeOkC, upd_same, h1]
            exact ⟨hk0.2.2.1, hk0.2.1, hk0.1, hk0.2.2.2.1, trivial⟩
          · exact (hend.ok k' hke).congr (by simp [upd_ne _ _ hke]) Iff.rfl rfl rfl
              (by simp [kinds_issueFlush, kinds_complete, hke]) rfl
        · intro k' hf'
          have hke : k' ≠ k := by rintro rfl; exact hnofin hf'
          simp only [upd_ne _ _ hke]
          exact h.fin k' hf'
        · intro k' hs'
          by_cases hke : k' = k
          · subst hke; exact h.bound k' hne
          · simp only [upd_ne _ _ hke] at hs'; exact h.bound k' hs'
      · exact fetchCompleted_inv hend false
    · exact fetchCompleted_inv hend true
    · rename_i h1 h2
      exfalso
      rcases hk0.2.2.2.2 with ⟨h3, -⟩ | ⟨h3, -⟩
      · exact h1 h3
      · exact h2 h3
  · exact fetchCompleted_inv hend false

/-! ### Guest steps -/

theorem mem_stripes {c : Cfg D} {r : QReq D} {k : Nat} :
    k ∈ stripes c r ↔ firstStripe c r ≤ k ∧ k ≤ lastStripe c r ∧ firstStripe c r ≤ lastStripe c r := by
  unfold stripes
  simp only [List.mem_map, List.mem_range]
  constructor
  · rintro ⟨i, hi, rfl⟩; omega
  · rintro ⟨h1, h2, h3⟩; exact ⟨k - firstStripe c r, by omega, by omega⟩

theorem first_le_last {c : Cfg D} {r : QReq D} (h : 0 < r.cnt) : firstStripe c r ≤ lastStripe c r := by
  unfold firstStripe lastStripe
  apply Nat.div_le_div_right; omega

theorem covers_stripe {c : Cfg D} {r : QReq D} {x : Nat} (h : covers r.off r.cnt x) : x / c.ss ∈ stripes c r := by
  unfold covers at h
  have hc : 0 < r.cnt := by omega
  rw [mem_stripes]
  refine ⟨Nat.div_le_div_right (by omega), Nat.div_le_div_right (by omega), first_le_last hc⟩

theorem stripe_bound {c : Cfg D} {r : QReq D} {k : Nat} (hv : c.validReq r.off r.cnt) (h : k ∈ stripes c r) : k < c.n := by
  rw [mem_stripes] at h
  have := hv.2.2
  unfold lastStripe at h
  omega

theorem startFetches_mem (sh : Shared) (ks : List Nat) (req : Nat → Bool) (ms : List Msg) (m : Msg)
    (h : m ∈ (startFetches sh ks req ms).2) : m ∈ ms ∨ ∃ k ∈ ks, m = .fetch k := by
  induction ks generalizing req ms with
  | nil => exact Or.inl h
  | cons k ks ih =>
    unfold startFetches at h
    split at h
    · rcases ih _ _ h with h1 | ⟨k', h1, h2⟩
      · simp only [List.mem_append, List.mem_singleton] at h1
        rcases h1 with h1 | h1
        · exact Or.inl h1
        · exact Or.inr ⟨k, by simp, h1⟩
      · exact Or.inr ⟨k', by simp [h1], h2⟩
    · rcases ih _ _ h with h1 | ⟨k', h1, h2⟩
      · exact Or.inl h1
      · exact Or.inr ⟨k', by simp [h1], h2⟩

theorem enqueueReq_frame {c : Cfg D} {s : Sys D} {q : Nat} {r : QReq D} {b : Bool} :
    (enqueueReq c s q r b).1.fe = s.fe ∧ (enqueueReq c s q r b).1.t = s.t ∧ (enqueueReq c s q r b).1.sh = s.sh ∧
    (enqueueReq c s q r b).1.m = s.m ∧ (enqueueReq c s q r b).1.fl = s.fl := by
  unfold enqueueReq
  split
  · exact ⟨rfl, rfl, rfl, rfl, rfl⟩
  · exact ⟨rfl, rfl, rfl, rfl, rfl⟩

theorem enqueueReq_msgs {c : Cfg D} {s : Sys D} {q : Nat} {r : QReq D} {b : Bool} (hv : c.validReq r.off r.cnt) :
    ∀ m ∈ (enqueueReq c s q r b).1.msgs, m ∈ s.msgs ∨ ∃ k, k < c.n ∧ (m = .fetch k ∨ m = .setWritten k) := by
  intro m hm
  unfold enqueueReq at hm
  split at hm
  · simp only [List.mem_append] at hm
    rcases hm with hm | hm
    · exact Or.inl hm
    · right
      have key : m ∈ (startFetches s.sh (stripes c r) (s.ch q).requested []).2 →
          ∃ k, k < c.n ∧ (m = .fetch k ∨ m = .setWritten k) := by
        intro h1
        rcases startFetches_mem _ _ _ _ _ h1 with h2 | ⟨k, h2, h3⟩
        · simp at h2
        · exact ⟨k, stripe_bound hv h2, Or.inl h3⟩
      split at hm
      · simp only [List.mem_append] at hm
        rcases hm with hm | hm
        · exact key hm
        · unfold startWritten at hm
          simp only [List.mem_map, List.mem_filter] at hm
          obtain ⟨k, ⟨h1, -⟩, rfl⟩ := hm
          exact ⟨k, stripe_bound hv h1, Or.inr rfl⟩
      · exact key hm
  · exact Or.inl hm

theorem toBase_kinds {s : Sys D} {q : Nat} {r : QReq D} (k : Nat) :
    (toBase s q r).t.kinds (.fetch k) = s.t.kinds (.fetch k) := by
  unfold toBase
  split
  · simp [kinds_issueRead]
  · simp [kinds_issueWrite]

theorem toBase_frame {s : Sys D} {q : Nat} {r : QReq D} :
    (toBase s q r).fe = s.fe ∧ (toBase s q r).msgs = s.msgs ∧ (toBase s q r).sh = s.sh ∧
    (toBase s q r).m = s.m ∧ (toBase s q r).fl = s.fl ∧ (toBase s q r).ch = s.ch := by
  unfold toBase
  split <;> exact ⟨rfl, rfl, rfl, rfl, rfl, rfl⟩

/-- What the steps taken by guest queues leave alone. -/
structure GuestFrame (c : Cfg D) (s s' : Sys D) : Prop where
  fe : s'.fe = s.fe
  sh : s'.sh = s.sh
  fl : s'.fl = s.fl
  m : s'.m = s.m
  kinds : ∀ k, s'.t.kinds (.fetch k) = s.t.kinds (.fetch k)
  msgs : ∀ m ∈ s'.msgs, m ∈ s.msgs ∨ ∃ k, k < c.n ∧ (m = .fetch k ∨ m = .setWritten k)

theorem enqueueReq_guest {c : Cfg D} {s : Sys D} {q : Nat} {r : QReq D} {b : Bool} (hv : c.validReq r.off r.cnt) :
    GuestFrame c s (enqueueReq c s q r b).1 := by
  obtain ⟨h1, h2, h3, h4, h5⟩ := @enqueueReq_frame D c s q r b
  exact ⟨h1, h3, h5, h4, fun k => by rw [h2], enqueueReq_msgs hv⟩

theorem toBase_guest {c : Cfg D} {s : Sys D} {q : Nat} {r : QReq D} : GuestFrame c s (toBase s q r) := by
  obtain ⟨h1, h2, h3, h4, h5, -⟩ := @toBase_frame D s q r
  exact ⟨h1, h3, h5, h4, toBase_kinds, fun m hm => Or.inl (by rwa [h2] at hm)⟩

theorem addRead_guest {c : Cfg D} {s : Sys D} {q id off cnt : Nat} {b : Bool} (hv : c.validReq off cnt) :
    GuestFrame c s (addRead c s q id off cnt b).1 := by
  unfold addRead
  simp only
  split
  · dsimp only; exact toBase_guest
  · exact ⟨rfl, rfl, rfl, rfl, fun _ => rfl, fun m hm => Or.inl hm⟩
  · split
    · exact ⟨rfl, rfl, rfl, rfl, fun _ => rfl, fun m hm => Or.inl hm⟩
    · exact enqueueReq_guest hv

theorem addWrite_guest {c : Cfg D} {s : Sys D} {q id off cnt : Nat} {data : Nat → D} {b : Bool}
    (hv : c.validReq off cnt) : GuestFrame c s (addWrite c s q id off cnt data b).1 := by
  unfold addWrite
  simp only
  split
  · exact ⟨rfl, rfl, rfl, rfl, fun _ => rfl, fun m hm => Or.inl hm⟩
  · split
    · dsimp only; exact toBase_guest
    · exact enqueueReq_guest hv
  · exact enqueueReq_guest hv

theorem processQueue_guest {c : Cfg D} {s s' : Sys D} {q : Nat} {b : Bool} {ls : List (Lab D)}
    (h : processQueue c s q b = some (s', ls)) : GuestFrame c s s' := by
  unfold processQueue at h
  split at h
  · simp at h
  · split at h
    · simp at h
    · simp only [Option.some.injEq, Prod.mk.injEq] at h
      obtain ⟨rfl, -⟩ := h
      exact ⟨rfl, rfl, rfl, rfl, fun _ => rfl, fun m hm => Or.inl hm⟩
    · split at h
      · simp at h
      · simp only at h
        split at h
        · simp only [Option.some.injEq, Prod.mk.injEq] at h
          obtain ⟨rfl, -⟩ := h
          obtain ⟨h1, h2, h3, h4, h5, h6⟩ := @toBase_guest D c
            (s.setCh q fun ch => { ch with queue := _, requested := fun k => ch.requested k && !(stripes c _).contains k }) q _
          exact ⟨h1, h2, h3, h4, h5, h6⟩
        · simp only [Option.some.injEq, Prod.mk.injEq] at h
          obtain ⟨rfl, -⟩ := h
          exact ⟨rfl, rfl, rfl, rfl, fun _ => rfl, fun m hm => Or.inl hm⟩

/-- Steps of guest queues. -/
def Act.isGuest : Act D → Bool
  | .read .. | .write .. | .flush .. | .processQueue .. | .reportFinished .. | .baseDone .. | .imageDone .. => true
  | _ => false

theorem guest_frame {c : Cfg D} {s s' : Sys D} {a : Act D} {ls : List (Lab D)} (h : Step c s a ls s')
    (hg : a.isGuest = true) : GuestFrame c s s' := by
  cases h with
  | read q id off cnt sendOk hv _ hid => exact addRead_guest hv
  | write q id off cnt data sendOk hv hid => exact addWrite_guest hv
  | flush q id hid =>
    exact ⟨rfl, rfl, rfl, rfl, fun k => by simp [kinds_issueFlush], fun m hm => Or.inl hm⟩
  | processQueue q submitOk _ _ h => exact processQueue_guest h
  | reportFinished q id ok rest h => exact ⟨rfl, rfl, rfl, rfl, fun _ => rfl, fun m hm => Or.inl hm⟩
  | baseDone q id ok h => exact ⟨rfl, rfl, rfl, rfl, fun k => by simp [kinds_complete], fun m hm => Or.inl hm⟩
  | imageDone q id ok off cnt h => exact ⟨rfl, rfl, rfl, rfl, fun _ => rfl, fun m hm => Or.inl hm⟩
  | _ => simp [Act.isGuest] at hg

theorem GuestFrame.fetchInv {c : Cfg D} {s s' : Sys D} (h : GuestFrame c s s') (hf : FetchInv c s) : FetchInv c s' :=
  hf.frame h.fe h.msgs h.kinds (fun k => by rw [h.sh])

theorem GuestFrame.metaInv {c : Cfg D} {mv : Nat → Bytes} {s s' : Sys D} (h : GuestFrame c s s') (hm : MetaInv c mv s) :
    MetaInv c mv s' :=
  hm.frame (by rw [h.fl]; exact ⟨rfl, rfl, rfl⟩) h.m (fun k mask hq => Or.inl (by rwa [h.fl] at hq))
    (fun k => by rw [h.sh]) (fun k => by rw [h.sh]) (fun k => by unfold settled; rw [h.sh, h.fe]; exact id)
    (fun k => by rw [h.fe]; exact id)

theorem metaDone_mono {s : Sys D} {k : Nat} {ok b : Bool} (k' : Nat) (h : s.sh.isLocal k' = true) :
    (metaDone s k ok b).sh.isLocal k' = true := by
  unfold metaDone
  simp only
  split
  · exact h
  · split
    · split
      · split <;> exact h
      · simp only [isLocal_setHeader, h, Bool.true_or]
    · exact h

theorem step_fetch {c : Cfg D} {mv : Nat → Bytes} {s s' : Sys D} {a : Act D} {ls : List (Lab D)}
    (hf : FetchInv c s) (hm : MetaInv c mv s) (h : Step c s a ls s') : FetchInv c s' := by
  by_cases hg : a.isGuest = true
  · exact (guest_frame h hg).fetchInv hf
  cases h with
  | execData o x =>
    exact hf.frame rfl (fun m hm => Or.inl hm) (fun k => by simp [kinds_exec]) (fun k => rfl)
  | execMeta k x => exact hf.frame rfl (fun m hm => Or.inl hm) (fun k => rfl) (fun k => rfl)
  | receiveFetch k ms hms =>
    apply handleFetch_inv
    · exact hf.frame rfl (fun m hm => Or.inl (by rw [hms]; exact List.mem_cons_of_mem _ hm)) (fun k => rfl) (fun k => rfl)
    · exact hf.mbound k (by rw [hms]; simp)
  | receiveWritten k ms hms =>
    exact hf.frame rfl (fun m hm => Or.inl (by rw [hms]; exact List.mem_cons_of_mem _ hm)) (fun k => rfl) (fun k => rfl)
  | autofetch k ks ha hq h =>
    apply handleFetch_inv
    · refine ⟨fun k' => (hf.ok k').congr rfl Iff.rfl rfl rfl rfl rfl, hf.nodup, hf.fin, hf.bound, hf.mbound, hf.wbound, ?_⟩
      intro k' hk'
      exact hf.abound k' (by rw [h]; exact List.mem_cons_of_mem _ hk')
    · exact hf.abound k (by rw [h]; simp)
  | startFetch submitOk _ _ h => exact startFetch_inv hf h
  | sourceDone k ok submitOk garbage _ _ h => exact sourceDone_inv hf h
  | targetDone k ok submitOk h => exact targetDone_inv hf h
  | takeFinished k ok rest h =>
    refine ⟨fun k' => (hf.ok k').congr rfl Iff.rfl rfl rfl rfl rfl, hf.nodup, ?_, hf.bound, hf.mbound, hf.wbound, hf.abound⟩
    intro k' hk'
    exact hf.fin k' (by rw [h]; exact List.mem_cons_of_mem _ hk')
  | startMeta submitOk _ h =>
    obtain ⟨h1, h2, h3, h4, h5⟩ := startMeta_frame h
    exact hf.frame h1 (fun m hm => Or.inl (by rwa [h4] at hm)) (fun k => by rw [h2]) (fun k => by rw [h5])
  | metaDone k ok submitOk h =>
    refine ⟨fun k' => ?_, by simpa using hf.nodup, by simpa using hf.fin, by simpa using hf.bound,
      by simpa using hf.mbound, by simpa using hf.wbound, by simpa using hf.abound⟩
    have h0 := hf.ok k'
    cases hl : s.sh.isLocal k' with
    | true =>
      exact h0.congr (by simp) (by simp) (by simp) (by simp) (by simp) (by rw [metaDone_mono k' hl, hl])
    | false =>
      cases hl' : (metaDone s k ok submitOk).sh.isLocal k' with
      | false => exact h0.congr (by simp) (by simp) (by simp) (by simp) (by simp) (by rw [hl, hl'])
      | true =>
        rcases metaDone_local hm k ok submitOk k' hl' with h1 | h1
        · rw [hl] at h1; simp at h1
        · unfold StripeOk StripeOkC at h0 ⊢
          simp only [metaDone_fe, metaDone_t, h1] at h0 ⊢
          exact h0
  | disconnect hd hb hc =>
    exact ⟨fun k' => (hf.ok k').congr rfl Iff.rfl rfl rfl rfl rfl, hf.nodup, hf.fin, hf.bound, hf.mbound, hf.wbound, hf.abound⟩
  | _ => simp [Act.isGuest] at hg

/-! ### How the fetcher's steps change shared state -/

/-- Effects of the worker's fetch steps on what other parts look at. -/
structure FetchFrame (s s' : Sys D) : Prop where
  fl : s'.fl = s.fl
  m : s'.m = s.m
  ch : s'.ch = s.ch
  ws : s'.sh.ws = s.sh.ws
  fs : ∀ k, s'.sh.fs k = .fetched ↔ s.sh.fs k = .fetched
  loc : ∀ k, s'.sh.isLocal k = s.sh.isLocal k
  st : ∀ k, s.fe.states k = some .fetched → s'.fe.states k = some .fetched

theorem FetchFrame.metaInv {c : Cfg D} {mv : Nat → Bytes} {s s' : Sys D} (h : FetchFrame s s') (hm : MetaInv c mv s) :
    MetaInv c mv s' :=
  hm.frame (by rw [h.fl]; exact ⟨rfl, rfl, rfl⟩) h.m (fun k mask hq => Or.inl (by rwa [h.fl] at hq))
    h.fs (fun k => by rw [h.ws])
    (fun k hs => hs.elim (fun h1 => Or.inl (by rw [h.loc]; exact h1)) (fun h1 => Or.inr (h.st k h1))) h.st

theorem fs_setFailed (sh : Shared) (k k' : Nat) (h : sh.isLocal k = false) :
    (sh.setFailed k).fs k' = .fetched ↔ sh.fs k' = .fetched := by
  by_cases hk : k' = k
  · subst hk
    simp only [Shared.setFailed, upd_same]
    constructor
    · intro h1; simp at h1
    · intro h1; simp [Shared.isLocal, h1] at h
  · simp [Shared.setFailed, upd_ne _ _ hk]

theorem fetchCompleted_frame {s : Sys D} {k : Nat} {ok : Bool} (hl : s.sh.isLocal k = false)
    (hst : s.fe.states k ≠ some .fetched) : FetchFrame s (fetchCompleted s k ok).1 := by
  have hne : ∀ k' x, s.fe.states k' = some .fetched → upd s.fe.states k x k' = some .fetched := by
    intro k' x h
    have : k' ≠ k := by rintro rfl; exact hst h
    rw [upd_ne _ _ this]; exact h
  unfold fetchCompleted
  simp only
  split
  · exact ⟨rfl, rfl, rfl, rfl, fun _ => Iff.rfl, fun _ => rfl, fun k' h => by simpa using hne k' _ h⟩
  · split
    · exact ⟨rfl, rfl, rfl, rfl, fun _ => Iff.rfl, fun _ => rfl, fun k' h => by simpa using hne k' _ h⟩
    · exact ⟨rfl, rfl, rfl, rfl, fun k' => fs_setFailed _ _ _ hl, fun k' => isLocal_setFailed _ _ _ hl,
        fun k' h => by simpa using hne k' _ h⟩

theorem FetchFrame.refl (s : Sys D) : FetchFrame s s :=
  ⟨rfl, rfl, rfl, rfl, fun _ => Iff.rfl, fun _ => rfl, fun _ => id⟩

theorem FetchFrame.trans {s s' s'' : Sys D} (h : FetchFrame s s') (h' : FetchFrame s' s'') : FetchFrame s s'' :=
  ⟨h'.fl.trans h.fl, h'.m.trans h.m, h'.ch.trans h.ch, h'.ws.trans h.ws, fun k => (h'.fs k).trans (h.fs k),
    fun k => (h'.loc k).trans (h.loc k), fun k hs => h'.st k (h.st k hs)⟩

theorem handleFetch_frame {s : Sys D} {k : Nat} : FetchFrame s (handleFetch s k).1 := by
  unfold handleFetch
  split
  · exact .refl s
  · split
    · exact .refl s
    · rename_i hs
      refine ⟨rfl, rfl, rfl, rfl, fun _ => Iff.rfl, fun _ => rfl, fun k' h => ?_⟩
      have : k' ≠ k := by rintro rfl; rw [h] at hs; simp at hs
      simp only [upd_ne _ _ this]; exact h

theorem handleFetch_t {s : Sys D} {k : Nat} : (handleFetch s k).1.t = s.t := by
  unfold handleFetch
  split
  · rfl
  · split <;> rfl

theorem handleFetch_settled {s : Sys D} {k k' : Nat} (h : settled (handleFetch s k).1 k') : settled s k' := by
  unfold handleFetch at h
  split at h
  · exact h
  · split at h
    · exact h
    · rcases h with h | h
      · exact Or.inl h
      · right
        by_cases hk : k' = k
        · subst hk; simp at h
        · simpa [upd_ne _ _ hk] using h

theorem fetchCompleted_t {s : Sys D} {k : Nat} {ok : Bool} : (fetchCompleted s k ok).1.t = s.t := by
  unfold fetchCompleted
  simp only
  split
  · rfl
  · split <;> rfl

/-- A failed attempt settles nothing. -/
theorem fetchCompleted_settled {s : Sys D} {k k' : Nat} (hl : s.sh.isLocal k = false)
    (h : settled (fetchCompleted s k false).1 k') : settled s k' := by
  unfold fetchCompleted at h
  simp only [Bool.false_eq_true, if_false] at h
  split at h
  · rcases h with h | h
    · exact Or.inl h
    · right
      by_cases hk : k' = k
      · subst hk; simp at h
      · simpa [upd_ne _ _ hk] using h
  · rcases h with h | h
    · left
      simp only [isLocal_setFailed _ _ _ hl] at h
      exact h
    · right
      by_cases hk : k' = k
      · subst hk; simp at h
      · simpa [upd_ne _ _ hk] using h

theorem fetchCompleted_settled_true {s : Sys D} {k k' : Nat}
    (h : settled (fetchCompleted s k true).1 k') : settled s k' ∨ k' = k := by
  unfold fetchCompleted at h
  simp only [if_true] at h
  rcases h with h | h
  · exact Or.inl (Or.inl h)
  · by_cases hk : k' = k
    · exact Or.inr hk
    · simp only [upd_ne _ _ hk, release_states] at h
      exact Or.inl (Or.inr h)

end Verif.Lazy
