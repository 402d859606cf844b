import Verif.Proof.LazyStep

/-! The invariants hold after a start, and the metadata invariant is kept by every step. -/

set_option maxRecDepth 8000

namespace Verif.Lazy
open Verif Verif.Metadata Verif.Disk

variable {D : Type}

theorem load_sectors {M : Nat} {mv : Nat → Bytes} {md : Meta} (hl : ∀ x, (mv x).length = 512)
    (h : fromBytes (devBytes M mv) = .ok md) :
    ∀ k, k < md.headers.length → sectorValid (mv (stripeIdToSector k)) = true ∧
      md.headers.getD k 0 = (mv (stripeIdToSector k)).getD (k % 508) 0 := by
  have hval : ∀ k, k < md.headers.length → sectorValid (mv (stripeIdToSector k)) = true := by
    intro k hk
    obtain ⟨-, -, -, -, -, -, -, -, -, -, h11, all, hall, -⟩ := fromBytes_ok h
    have h2 := (readGroups_ok hall).1 (k / 508) (by unfold divCeil; omega)
    have hlen := devBytes_length M mv hl
    have hM : stripeIdToSector k < M := by
      rw [hlen] at h2
      unfold stripeIdToSector
      omega
    have := devBytes_slice M mv hl (stripeIdToSector k) hM
    rw [← this]
    have e : stripeIdToSector k * 512 = 512 + (0 + k / 508) * 512 := by unfold stripeIdToSector; omega
    rw [e]; exact h2.2
  obtain ⟨md', h1, -, -, h4⟩ := fromBytes_replace hl hl h rfl hval
  rw [h] at h1
  simp only [Except.ok.injEq] at h1
  subst h1
  exact fun k hk => ⟨hval k hk, h4 k hk⟩

theorem loadFs_fetched {h : UInt8} (hh : loadFs h = .fetched) : flag h FETCHED = true := by
  unfold loadFs at hh
  split at hh
  · split at hh
    · assumption
    · simp at hh
  · simp at hh

theorem loadFs_local (h : UInt8) :
    (decide (loadFs h = .fetched) || decide (loadFs h = .noSource)) = (!flag h HAS_SOURCE || flag h FETCHED) := by
  unfold loadFs
  rcases Bool.eq_false_or_eq_true (flag h HAS_SOURCE) with h1 | h1 <;>
    rcases Bool.eq_false_or_eq_true (flag h FETCHED) with h2 | h2 <;> simp [h1, h2]

theorem boot_isLocal {c : Cfg D} {hdrs : Bytes} {tv : Nat → D} {mv : Nat → Bytes} {b0 : Nat → Nat → D} {k : Nat} :
    (Sys.boot c hdrs tv mv b0).sh.isLocal k = (!flag (hdrs.getD k 0) HAS_SOURCE || flag (hdrs.getD k 0) FETCHED) := by
  exact loadFs_local _

theorem boot_hdr {c : Cfg D} {hdrs : Bytes} {tv : Nat → D} {mv : Nat → Bytes} {b0 : Nat → Nat → D}
    (hb : Bootable c hdrs mv) (k : Nat) : HdrOk c (Sys.boot c hdrs tv mv b0) k (hdrs.getD k 0) := by
  refine ⟨(hb.hs k).symm, fun h => loadFs_fetched h, fun h => h, fun h => Or.inl ?_⟩
  rw [boot_isLocal, h]; simp

theorem boot_meta {c : Cfg D} {hdrs : Bytes} {tv : Nat → D} {mv : Nat → Bytes} {b0 : Nat → Nat → D}
    (hb : Bootable c hdrs mv) : MetaInv c mv (Sys.boot c hdrs tv mv b0) := by
  obtain ⟨md, hld, hmd⟩ := hb.load
  have hsec := load_sectors hb.sectors hld
  rw [hmd, hb.len] at hsec
  refine ⟨hb.len, fun k _ => boot_hdr hb k, ?_, ?_, ?_, ?_, ?_, Dev.Inv.fresh mv⟩
  · intro x v hp
    have : v = mv x := hp
    subst this
    refine ⟨hb.sectors x, ?_, ?_, fun _ => rfl⟩
    · rintro k hk rfl; exact (hsec k hk).1
    · rintro k hk rfl
      rw [← (hsec k hk).2]
      exact boot_hdr hb k
  · intro k u h; simp [Sys.boot] at h
  · intro k _; rfl
  · intro k u k' u' h; simp [Sys.boot] at h
  · intro k mask h; simp [Sys.boot] at h

theorem boot_fetch {c : Cfg D} {hdrs : Bytes} {tv : Nat → D} {mv : Nat → Bytes} {b0 : Nat → Nat → D}
    (hb : Bootable c hdrs mv) : FetchInv c (Sys.boot c hdrs tv mv b0) := by
  refine ⟨?_, by simp [Sys.boot], ?_, ?_, ?_, ?_, ?_⟩
  · intro k
    simp [StripeOk, StripeOkC, Sys.boot, Dev.kinds, Dev.fresh]
  · intro k h; simp [Sys.boot] at h
  · intro k h; simp [Sys.boot] at h
  · intro k h; simp [Sys.boot] at h
  · intro k h; simp [Sys.boot] at h
  · intro k h
    simp only [Sys.boot] at h
    split at h
    · have := hb.srcStripes; simp at h; omega
    · simp at h

theorem startFetch_frame {c : Cfg D} {s s' : Sys D} {ls : List (Lab D)} {b : Bool} (h : FetchInv c s)
    (hs : startFetch c s b = some (s', ls)) :
    FetchFrame s s' ∧ s'.t = s.t ∧ ∀ k, settled s' k → settled s k := by
  unfold startFetch at hs
  split at hs
  · rename_i k q bu free hq hf
    have hk0 := (h.ok k).queued (by rw [hq]; simp)
    simp only at hs
    split at hs
    · simp only [Option.some.injEq, Prod.mk.injEq] at hs
      obtain ⟨rfl, -⟩ := hs
      refine ⟨⟨rfl, rfl, rfl, rfl, fun _ => Iff.rfl, fun _ => rfl, fun k' h' => ?_⟩, rfl, ?_⟩
      · have : k' ≠ k := by rintro rfl; rw [h'] at hk0; simp at hk0
        simp only [upd_ne _ _ this]; exact h'
      · rintro k' (h' | h')
        · exact Or.inl h'
        · right
          by_cases hk : k' = k
          · subst hk; simp at h'
          · simpa [upd_ne _ _ hk] using h'
    · simp only [Option.some.injEq, Prod.mk.injEq] at hs
      obtain ⟨rfl, -⟩ := hs
      refine ⟨?_, fetchCompleted_t, ?_⟩
      · have := fetchCompleted_frame (s := { s with fe := { s.fe with queue := q, free := free, alloc := upd s.fe.alloc k (some bu) } })
          (k := k) (ok := false) hk0.1 (by simp [hk0.2.2.2.2])
        exact ⟨this.fl, this.m, this.ch, this.ws, this.fs, this.loc, this.st⟩
      · intro k' h'
        exact fetchCompleted_settled (s := { s with fe := { s.fe with queue := q, free := free, alloc := upd s.fe.alloc k (some bu) } }) hk0.1 h'
  · simp at hs

/-- `sourceDone` either writes the stripe or ends the attempt. -/
theorem sourceDone_frame {c : Cfg D} {s s' : Sys D} {ls : List (Lab D)} {k : Nat} {ok b : Bool} {g : Nat → D}
    (h : FetchInv c s) (hs : sourceDone c s k ok b g = some (s', ls)) :
    FetchFrame s s' ∧ (∀ k, settled s' k → settled s k) ∧ s.fe.srcIn k = true ∧
    (s'.t = s.t ∨ ∃ bu, s'.t = s.t.issueWrite (.fetch k) (k * c.ss) (stripeLen c k)
      fun x => fillBuf c k (s.fe.bufs bu) (x - k * c.ss)) := by
  unfold sourceDone at hs
  split at hs
  · rename_i hsi
    have hk0 := (h.ok k).src hsi
    simp only at hs
    split at hs
    · rename_i hal; exact absurd hal hk0.2.1
    · rename_i bu hal
      have hfc : ∀ bufs, FetchFrame s (fetchCompleted { s with fe := { s.fe with srcIn := upd s.fe.srcIn k false, bufs := bufs } } k false).1 := by
        intro bufs
        have := fetchCompleted_frame (s := { s with fe := { s.fe with srcIn := upd s.fe.srcIn k false, bufs := bufs } })
          (k := k) (ok := false) hk0.1 (by simp [hk0.2.2.2.2])
        exact ⟨this.fl, this.m, this.ch, this.ws, this.fs, this.loc, this.st⟩
      have hst : ∀ bufs k', settled (fetchCompleted { s with fe := { s.fe with srcIn := upd s.fe.srcIn k false, bufs := bufs } } k false).1 k' →
          settled s k' := by
        intro bufs k' h'
        exact fetchCompleted_settled (s := { s with fe := { s.fe with srcIn := upd s.fe.srcIn k false, bufs := bufs } }) hk0.1 h'
      split at hs
      · split at hs
        · simp only [Option.some.injEq, Prod.mk.injEq] at hs
          obtain ⟨rfl, -⟩ := hs
          exact ⟨⟨rfl, rfl, rfl, rfl, fun _ => Iff.rfl, fun _ => rfl, fun _ => id⟩, fun _ => id, hsi, Or.inr ⟨bu, rfl⟩⟩
        · simp only [Option.some.injEq] at hs
          have h1 := hfc (upd s.fe.bufs bu (sentBuf c k (fillBuf c k (s.fe.bufs bu))))
          have h2 := hst (upd s.fe.bufs bu (sentBuf c k (fillBuf c k (s.fe.bufs bu))))
          have h3 := congrArg (fun p => p.1.t) hs
          rw [hs] at h1 h2
          refine ⟨h1, h2, hsi, Or.inl ?_⟩
          simp only [fetchCompleted_t] at h3
          exact h3.symm
      · simp only [Option.some.injEq] at hs
        have h1 := hfc (upd s.fe.bufs bu g)
        have h2 := hst (upd s.fe.bufs bu g)
        have h3 := congrArg (fun p => p.1.t) hs
        rw [hs] at h1 h2
        refine ⟨h1, h2, hsi, Or.inl ?_⟩
        simp only [fetchCompleted_t] at h3
        exact h3.symm
  · simp at hs

/-- `targetDone`: either a flush follows the write, or the attempt ends. -/
theorem targetDone_frame {c : Cfg D} {s : Sys D} {k : Nat} {ok b : Bool} (h : FetchInv c s)
    (hm : s.t.mayComplete (.fetch k) ok) :
    FetchFrame s (targetDone s k ok b).1 ∧
    ((∃ data done, ok = true ∧ s.fe.states k = some .fetching ∧
        s.t.ops (.fetch k) = some (.write (k * c.ss) (stripeLen c k) data done) ∧
        (∀ x, covers (k * c.ss) (stripeLen c k) x → done x = true) ∧
        (targetDone s k ok b).1.t = (s.t.complete (.fetch k) ok).issueFlush (.fetch k) ∧
        (∀ k', settled (targetDone s k ok b).1 k' → settled s k')) ∨
     ((targetDone s k ok b).1.t = s.t.complete (.fetch k) ok ∧
        (∀ k', settled (targetDone s k ok b).1 k' → settled s k')) ∨
     (∃ snap, ok = true ∧ s.t.ops (.fetch k) = some (.flush snap) ∧
        (targetDone s k ok b).1.t = s.t.complete (.fetch k) ok ∧
        (∀ k', settled (targetDone s k ok b).1 k' → settled s k' ∨ k' = k))) := by
  obtain ⟨op, hop, hfin⟩ := hm
  have hk0 := (h.ok k).busy (by rw [kinds_of_ops hop]; simp)
  have hst : s.fe.states k ≠ some .fetched := by
    rcases hk0.2.2.2.2 with ⟨h1, -⟩ | ⟨h1, -⟩ <;> rw [h1] <;> simp
  have hff : ∀ ok', FetchFrame s (fetchCompleted { s with t := s.t.complete (.fetch k) ok } k ok').1 := by
    intro ok'
    have := fetchCompleted_frame (s := { s with t := s.t.complete (.fetch k) ok }) (k := k) (ok := ok') hk0.1 hst
    exact ⟨this.fl, this.m, this.ch, this.ws, this.fs, this.loc, this.st⟩
  have hfs : ∀ k', settled (fetchCompleted { s with t := s.t.complete (.fetch k) ok } k false).1 k' → settled s k' :=
    fun k' h' => fetchCompleted_settled (s := { s with t := s.t.complete (.fetch k) ok }) hk0.1 h'
  unfold targetDone
  simp only
  split
  · rename_i hok
    subst hok
    split
    · rename_i hfe
      rcases hk0.2.2.2.2 with ⟨h1, h2⟩ | ⟨h1, -⟩
      case inr => rw [h1] at hfe; simp at hfe
      obtain ⟨data, done, h3⟩ := kinds_write h2
      split
      · refine ⟨⟨rfl, rfl, rfl, rfl, fun _ => Iff.rfl, fun _ => rfl, fun k' h' => ?_⟩, Or.inl ⟨data, done, rfl, h1, h3, ?_, rfl, ?_⟩⟩
        · have : k' ≠ k := by rintro rfl; exact hst h'
          simp only [upd_ne _ _ this]; exact h'
        · rw [h3] at hop
          simp only [Option.some.injEq] at hop
          subst hop
          exact hfin rfl
        · rintro k' (h' | h')
          · exact Or.inl h'
          · right
            by_cases hk : k' = k
            · subst hk; simp at h'
            · simpa [upd_ne _ _ hk] using h'
      · exact ⟨hff false, Or.inr (Or.inl ⟨fetchCompleted_t, hfs⟩)⟩
    · rename_i hfe
      rcases hk0.2.2.2.2 with ⟨h1, h2⟩ | ⟨h1, h2⟩
      case inl => rw [h1] at hfe; simp at hfe
      obtain ⟨snap, h3⟩ := kinds_flush h2
      refine ⟨hff true, Or.inr (Or.inr ⟨snap, rfl, h3, fetchCompleted_t, ?_⟩)⟩
      intro k' h'
      exact fetchCompleted_settled_true (s := { s with t := s.t.complete (.fetch k) true }) h'
    · rename_i h1 h2
      exfalso
      rcases hk0.2.2.2.2 with ⟨h3, -⟩ | ⟨h3, -⟩
      · exact h1 h3
      · exact h2 h3
  · exact ⟨hff false, Or.inr (Or.inl ⟨fetchCompleted_t, hfs⟩)⟩

theorem step_meta {c : Cfg D} {mv : Nat → Bytes} {s s' : Sys D} {a : Act D} {ls : List (Lab D)}
    (hf : FetchInv c s) (hm : MetaInv c mv s) (h : Step c s a ls s') : MetaInv c mv s' := by
  by_cases hg : a.isGuest = true
  · exact (guest_frame h hg).metaInv hm
  have triv : ∀ s'' : Sys D, s''.fl = s.fl → s''.m = s.m → s''.sh = s.sh → s''.fe.states = s.fe.states → MetaInv c mv s'' := by
    intro s'' h1 h2 h3 h4
    refine hm.frame (by rw [h1]; exact ⟨rfl, rfl, rfl⟩) h2 (fun k mask hq => Or.inl (by rwa [h1] at hq))
      (fun k => by rw [h3]) (fun k => by rw [h3]) (fun k => ?_) (fun k => by rw [h4]; exact id)
    unfold settled; rw [h3, h4]; exact id
  cases h with
  | execData o x => exact triv _ rfl rfl rfl rfl
  | execMeta k x => exact execMeta_inv hm k x
  | receiveFetch k ms hms =>
    exact handleFetch_frame.metaInv (triv _ rfl rfl rfl rfl)
  | receiveWritten k ms hms =>
    refine hm.frame ⟨rfl, rfl, rfl⟩ rfl ?_ (fun k => Iff.rfl) (fun k => rfl) (fun k => id) (fun k => id)
    intro k' mask hq
    simp only [List.mem_append, List.mem_singleton, Prod.mk.injEq] at hq
    rcases hq with hq | ⟨rfl, rfl⟩
    · exact Or.inl hq
    · exact Or.inr ⟨hf.wbound k' (by rw [hms]; simp), Or.inr rfl⟩
  | autofetch k ks ha hq h => exact handleFetch_frame.metaInv (triv _ rfl rfl rfl rfl)
  | startFetch submitOk _ _ h => exact (startFetch_frame hf h).1.metaInv hm
  | sourceDone k ok submitOk garbage _ _ h => exact (sourceDone_frame hf h).1.metaInv hm
  | targetDone k ok submitOk h => exact (targetDone_frame hf h).1.metaInv hm
  | takeFinished k ok rest h =>
    cases ok with
    | false => exact triv _ rfl rfl rfl rfl
    | true =>
      refine hm.frame ⟨rfl, rfl, rfl⟩ rfl ?_ (fun k => Iff.rfl) (fun k => rfl) (fun k => id) (fun k => id)
      intro k' mask hq
      simp only [if_true, List.mem_append, List.mem_singleton, Prod.mk.injEq] at hq
      rcases hq with hq | ⟨rfl, rfl⟩
      · exact Or.inl hq
      · have := hf.fin k' (by rw [h]; simp)
        exact Or.inr ⟨hf.bound k' (by rw [this]; simp), Or.inl ⟨rfl, this⟩⟩
  | startMeta submitOk _ h => exact startMeta_inv hm submitOk h
  | metaDone k ok submitOk h => exact metaDone_inv hm k ok submitOk h
  | disconnect hd hb hc => exact triv _ rfl rfl rfl rfl
  | _ => simp [Act.isGuest] at hg

end Verif.Lazy
