import Verif.Proof.MetaDev
import Verif.Proof.LazyFetch

/-! Invariant of the metadata flusher and the metadata device. -/

set_option maxRecDepth 8000

namespace Verif.Lazy
open Verif Verif.Metadata Verif.Disk

variable {D : Type}

/-- The stripe's data are complete on the data device (in this run or an earlier one). -/
def settled (s : Sys D) (k : Nat) : Prop := s.sh.isLocal k = true ∨ s.fe.states k = some .fetched

/-- A header byte (in memory or possibly on disk) agrees with the shared state. -/
structure HdrOk (c : Cfg D) (s : Sys D) (k : Nat) (h : UInt8) : Prop where
  src : flag h HAS_SOURCE = c.hs k
  fetched : s.sh.fs k = .fetched → flag h FETCHED = true
  written : s.sh.ws k = true → flag h WRITTEN = true
  settled : flag h FETCHED = true → settled s k

/-- A possible content of metadata sector `x`. -/
structure SecOk (c : Cfg D) (s : Sys D) (mv : Nat → Bytes) (x : Nat) (v : Bytes) : Prop where
  len : v.length = 512
  valid : ∀ k, k < c.n → stripeIdToSector k = x → sectorValid v = true
  hdr : ∀ k, k < c.n → stripeIdToSector k = x → HdrOk c s k (v.getD (k % 508) 0)
  other : (∀ k, k < c.n → stripeIdToSector k ≠ x) → v = mv x

/-- Current sector image of the group of stripe `k`. -/
def secImage (s : Sys D) (k : Nat) : Bytes := writeSector (groupHeaders s.fl.hdrs (k / 508))

def StageOk (s : Sys D) (k : Nat) (u : Update) : Prop :=
  match u.stage with
  | .writing => ∃ data done, s.m.ops k = some (.write u.sector 1 data done) ∧ data u.sector = secImage s k ∧
      (done u.sector = true → s.m.vol u.sector = secImage s k)
  | .flushing => ∃ snap, s.m.ops k = some (.flush snap) ∧ ∀ v, snap u.sector v → v = secImage s k

structure UpdOk (c : Cfg D) (s : Sys D) (k : Nat) (u : Update) : Prop where
  kn : k < c.n
  sector : u.sector = stripeIdToSector k
  busy : s.fl.busy u.sector = true
  header : u.header = s.fl.hdrs.getD k 0
  mask : (u.mask = FETCHED ∧ s.sh.fs k ≠ .fetched) ∨ (u.mask = WRITTEN ∧ s.sh.ws k = false)
  set : flag u.header u.mask = true
  stage : StageOk s k u

structure MetaInv (c : Cfg D) (mv : Nat → Bytes) (s : Sys D) : Prop where
  len : s.fl.hdrs.length = c.n
  hdr : ∀ k, k < c.n → HdrOk c s k (s.fl.hdrs.getD k 0)
  pers : ∀ x v, s.m.pers x v → SecOk c s mv x v
  upd : ∀ k u, s.fl.updates k = some u → UpdOk c s k u
  noupd : ∀ k, s.fl.updates k = none → s.m.ops k = none
  uniq : ∀ k u k' u', s.fl.updates k = some u → s.fl.updates k' = some u' → u.sector = u'.sector → k = k'
  queue : ∀ k mask, (k, mask) ∈ s.fl.queue → k < c.n ∧ ((mask = FETCHED ∧ s.fe.states k = some .fetched) ∨ mask = WRITTEN)
  dev : s.m.Inv

theorem HdrOk.mono {c : Cfg D} {s s' : Sys D} {k : Nat} {h : UInt8} (hh : HdrOk c s k h)
    (hf : s'.sh.fs k = .fetched → s.sh.fs k = .fetched) (hw : s'.sh.ws k = true → s.sh.ws k = true)
    (hs : Lazy.settled s k → Lazy.settled s' k) : HdrOk c s' k h :=
  ⟨hh.src, fun h1 => hh.fetched (hf h1), fun h1 => hh.written (hw h1), fun h1 => hs (hh.settled h1)⟩

theorem SecOk.mono {c : Cfg D} {s s' : Sys D} {mv : Nat → Bytes} {x : Nat} {v : Bytes} (hh : SecOk c s mv x v)
    (h : ∀ k, k < c.n → stripeIdToSector k = x → HdrOk c s k (v.getD (k % 508) 0) → HdrOk c s' k (v.getD (k % 508) 0)) :
    SecOk c s' mv x v :=
  ⟨hh.len, hh.valid, fun k hk hx => h k hk hx (hh.hdr k hk hx), hh.other⟩

/-- Steps that do not touch the flusher or its device and only settle more stripes. -/
theorem MetaInv.frame {c : Cfg D} {mv : Nat → Bytes} {s s' : Sys D} (h : MetaInv c mv s)
    (hfl : s'.fl.hdrs = s.fl.hdrs ∧ s'.fl.busy = s.fl.busy ∧ s'.fl.updates = s.fl.updates) (hm : s'.m = s.m)
    (hq : ∀ k mask, (k, mask) ∈ s'.fl.queue →
      (k, mask) ∈ s.fl.queue ∨ (k < c.n ∧ ((mask = FETCHED ∧ s'.fe.states k = some .fetched) ∨ mask = WRITTEN)))
    (hf : ∀ k, s'.sh.fs k = .fetched ↔ s.sh.fs k = .fetched) (hw : ∀ k, s'.sh.ws k = s.sh.ws k)
    (hs : ∀ k, settled s k → settled s' k)
    (hst : ∀ k, s.fe.states k = some .fetched → s'.fe.states k = some .fetched) :
    MetaInv c mv s' := by
  obtain ⟨h1, h2, h3⟩ := hfl
  refine ⟨by rw [h1]; exact h.len, ?_, ?_, ?_, ?_, ?_, ?_, by rw [hm]; exact h.dev⟩
  · intro k hk
    rw [h1]
    exact (h.hdr k hk).mono (hf k).mp (by rw [hw]; exact id) (hs k)
  · intro x v hp
    rw [hm] at hp
    exact (h.pers x v hp).mono fun k _ _ hh => hh.mono (hf k).mp (by rw [hw]; exact id) (hs k)
  · intro k u hu
    rw [h3] at hu
    have := h.upd k u hu
    refine ⟨this.kn, this.sector, by rw [h2]; exact this.busy, by rw [h1]; exact this.header, ?_, this.set, ?_⟩
    · rw [hw, ne_eq, hf]; exact this.mask
    · have hst := this.stage
      unfold StageOk secImage at hst ⊢
      rw [hm, h1]
      exact hst
  · intro k hu
    rw [h3] at hu; rw [hm]; exact h.noupd k hu
  · rw [h3]; exact h.uniq
  · intro k mask hq'
    rcases hq k mask hq' with h4 | h4
    · obtain ⟨h5, h6⟩ := h.queue k mask h4
      refine ⟨h5, ?_⟩
      rcases h6 with ⟨h6, h7⟩ | h6
      · exact Or.inl ⟨h6, hst k h7⟩
      · exact Or.inr h6
    · exact h4

theorem inflight_meta {c : Cfg D} {mv : Nat → Bytes} {s : Sys D} (h : MetaInv c mv s) {x : Nat} {v : Bytes}
    (hf : s.m.inflight x v) : ∃ k u, s.fl.updates k = some u ∧ u.sector = x := by
  obtain ⟨k, off, cnt, data, done, ho, hc, hv⟩ := hf
  cases hu : s.fl.updates k with
  | none => rw [h.noupd k hu] at ho; simp at ho
  | some u =>
    refine ⟨k, u, hu, ?_⟩
    have := (h.upd k u hu).stage
    unfold StageOk at this
    cases hst : u.stage with
    | writing =>
      simp only [hst] at this
      obtain ⟨d', dn', h1, -⟩ := this
      rw [ho] at h1
      simp only [Option.some.injEq, Op.write.injEq] at h1
      obtain ⟨rfl, rfl, rfl, rfl⟩ := h1
      simp only [covers] at hc
      omega
    | flushing =>
      simp only [hst] at this
      obtain ⟨snap, h1, -⟩ := this
      rw [ho] at h1; simp at h1

theorem execMeta_inv {c : Cfg D} {mv : Nat → Bytes} {s : Sys D} (h : MetaInv c mv s) (k x : Nat) :
    MetaInv c mv { s with m := s.m.exec k x } := by
  refine ⟨h.len, fun k' hk' => (h.hdr k' hk').mono id id id, ?_, ?_, ?_, h.uniq, h.queue, h.dev.exec k x⟩
  · intro y v hp
    simp only [pers_exec] at hp
    exact (h.pers y v hp).mono fun _ _ _ hh => hh.mono id id id
  · intro k' u hu
    have hk' := h.upd k' u hu
    refine ⟨hk'.kn, hk'.sector, hk'.busy, hk'.header, hk'.mask, hk'.set, ?_⟩
    have hst := hk'.stage
    unfold StageOk at hst ⊢
    cases hstage : u.stage with
    | writing =>
      simp only [hstage] at hst ⊢
      obtain ⟨data, done, h1, h2, h3⟩ := hst
      by_cases hkk : k' = k
      · subst hkk
        by_cases hcov : covers u.sector 1 x
        · have hx : x = u.sector := by simp only [covers] at hcov; omega
          subst hx
          show ∃ data done, (s.m.exec k' u.sector).ops k' = some (.write u.sector 1 data done) ∧ data u.sector = secImage s k' ∧
            (done u.sector = true → (s.m.exec k' u.sector).vol u.sector = secImage s k')
          rw [exec_write h1 hcov]
          exact ⟨data, upd done u.sector true, by simp, h2, fun _ => by simpa using h2⟩
        · have : s.m.exec k' x = s.m := by simp [Dev.exec, h1, hcov]
          rw [this]; exact ⟨data, done, h1, h2, h3⟩
      · refine ⟨data, done, by rw [ops_exec_ne _ _ hkk]; exact h1, h2, ?_⟩
        intro hd
        rcases vol_exec (d := s.m) (o := k) (x := x) (y := u.sector) with hv | ⟨rfl, off, cnt, dt, dn, ho, hc, hv⟩
        · rw [hv]; exact h3 hd
        · obtain ⟨k2, u2, hu2, hs2⟩ : ∃ k2 u2, s.fl.updates k2 = some u2 ∧ u2.sector = u.sector ∧ k2 = k := by
            cases hu2 : s.fl.updates k with
            | none => rw [h.noupd k hu2] at ho; simp at ho
            | some u2 =>
              refine ⟨k, u2, hu2, ?_, rfl⟩
              have := (h.upd k u2 hu2).stage
              unfold StageOk at this
              cases hst2 : u2.stage with
              | writing =>
                simp only [hst2] at this
                obtain ⟨d', dn', h4, -⟩ := this
                rw [ho] at h4
                simp only [Option.some.injEq, Op.write.injEq] at h4
                obtain ⟨rfl, rfl, rfl, rfl⟩ := h4
                simp only [covers] at hc
                omega
              | flushing =>
                simp only [hst2] at this
                obtain ⟨snap, h4, -⟩ := this
                rw [ho] at h4; simp at h4
          have := h.uniq k2 u2 k' u hu2 hu hs2.1
          exact absurd (this.symm.trans hs2.2) hkk
    | flushing =>
      simp only [hstage] at hst ⊢
      obtain ⟨snap, h1, h2⟩ := hst
      exact ⟨snap, by rw [exec_flush]; exact h1, h2⟩
  · intro k' hu
    have := h.noupd k' hu
    have hk := kinds_exec s.m k k' x
    rw [← kinds_none] at this ⊢
    rw [hk]; exact this

theorem startMeta_inv {c : Cfg D} {mv : Nat → Bytes} {s s' : Sys D} (h : MetaInv c mv s) (submitOk : Bool)
    (hs : startMeta s submitOk = some s') : MetaInv c mv s' := by
  unfold startMeta at hs
  cases hq : s.fl.queue with
  | nil => simp [hq] at hs
  | cons p q =>
    obtain ⟨k, mask⟩ := p
    have hkq := h.queue k mask (by rw [hq]; simp)
    have hqq : ∀ k' mask', (k', mask') ∈ q → (k', mask') ∈ s.fl.queue := by
      intro k' m' hm; rw [hq]; exact List.mem_cons_of_mem _ hm
    simp only [hq] at hs
    split at hs
    · simp at hs
    split at hs
    · simp at hs
    rename_i hbusy
    simp only [Bool.not_eq_true] at hbusy
    split at hs
    · simp only [Option.some.injEq] at hs
      subst hs
      exact h.frame ⟨rfl, rfl, rfl⟩ rfl (fun k' m' hm => Or.inl (hqq k' m' hm)) (fun _ => Iff.rfl) (fun _ => rfl)
        (fun _ => id) (fun _ => id)
    rename_i hflag
    simp only [Bool.not_eq_true] at hflag
    have hlen : k < s.fl.hdrs.length := by rw [h.len]; exact hkq.1
    split at hs
    · -- the write is issued
      simp only [Option.some.injEq] at hs
      subst hs
      have hk0 := h.hdr k hkq.1
      have hmask : (mask = FETCHED ∧ s.sh.fs k ≠ .fetched) ∨ (mask = WRITTEN ∧ s.sh.ws k = false) := by
        rcases hkq.2 with ⟨h1, h2⟩ | h1
        · left
          subst h1
          refine ⟨rfl, ?_⟩
          intro hf
          have := hk0.fetched hf
          rw [hflag] at this; simp at this
        · right
          subst h1
          refine ⟨rfl, ?_⟩
          cases hw : s.sh.ws k with
          | false => rfl
          | true =>
            have := hk0.written hw
            rw [hflag] at this; simp at this
      have hhdr : ∀ k', k' < c.n → HdrOk c s k' ((s.fl.hdrs.set k (s.fl.hdrs.getD k 0 ||| mask)).getD k' 0) := by
        intro k' hk'
        rw [getD_set _ _ _ _ hlen]
        split
        · rename_i he
          subst he
          refine ⟨?_, ?_, ?_, ?_⟩
          · rw [flag_or, hk0.src]
            rcases hmask with ⟨rfl, -⟩ | ⟨rfl, -⟩
            · simp [flag_FS]
            · simp [flag_WS]
          · intro hf; rw [flag_or, hk0.fetched hf]; rfl
          · intro hf; rw [flag_or, hk0.written hf]; rfl
          · intro hf
            rcases hkq.2 with ⟨h1, h2⟩ | h1
            · exact Or.inr h2
            · subst h1
              rw [flag_or, flag_WF, Bool.or_false] at hf
              exact hk0.settled hf
        · exact h.hdr k' hk'
      have hother : ∀ k' u, s.fl.updates k' = some u → u.sector ≠ stripeIdToSector k := by
        intro k' u hu he
        have := (h.upd k' u hu).busy
        rw [he, hbusy] at this; simp at this
      have hkk : s.fl.updates k = none := by
        cases hu : s.fl.updates k with
        | none => rfl
        | some u => exact absurd (h.upd k u hu).sector (hother k u hu)
      refine ⟨?_, ?_, ?_, ?_, ?_, ?_, ?_, h.dev.issueWrite _ _ _ _⟩
      · simp [h.len]
      · intro k' hk'
        exact (hhdr k' hk').mono id id id
      · intro x v hp
        rcases hp with hp | ⟨hc, hv⟩
        · exact (h.pers x v hp).mono fun k' _ _ hh => hh.mono id id id
        · have hx : x = stripeIdToSector k := by simp only [covers] at hc; omega
          subst hv
          refine ⟨writeSector_length _, fun _ _ _ => writeSector_valid _, ?_, ?_⟩
          · intro k' hk' hx'
            have hg : k' / 508 = k / 508 := by
              rw [hx] at hx'; unfold stripeIdToSector at hx'; omega
            have := writeSector_byte (s.fl.hdrs.set k (s.fl.hdrs.getD k 0 ||| mask)) k' (by simpa [h.len] using hk')
            unfold stripeIdToGroup
            rw [← hg, this]
            exact (hhdr k' hk').mono id id id
          · intro hno
            exact absurd hx.symm (hno k hkq.1)
      · intro k' u hu
        by_cases hke : k' = k
        · subst hke
          simp only [upd_same, Option.some.injEq] at hu
          subst hu
          refine ⟨hkq.1, rfl, by simp, ?_, hmask, ?_, ?_⟩
          · simp only [getD_set _ _ _ _ hlen, if_true]
          · simp only [flag_or]
            rcases hmask with ⟨rfl, -⟩ | ⟨rfl, -⟩
            · simp [flag_FF]
            · simp [flag_WW]
          · unfold StageOk
            simp only
            exact ⟨_, _, ops_issueWrite_same _ _ _ _ _, rfl, by simp⟩
        · simp only [upd_ne _ _ hke] at hu
          have hu' := h.upd k' u hu
          have hsec := hother k' u hu
          have hgrp : k / 508 ≠ k' / 508 := by
            intro he; apply hsec; rw [hu'.sector]; unfold stripeIdToSector; omega
          have himg : (writeSector (groupHeaders (s.fl.hdrs.set k (s.fl.hdrs.getD k 0 ||| mask)) (k' / 508))) = secImage s k' := by
            unfold secImage; rw [groupHeaders_set_ne _ _ _ _ hgrp]
          refine ⟨hu'.kn, hu'.sector, ?_, ?_, hu'.mask, hu'.set, ?_⟩
          · simp only [upd_ne _ _ hsec]; exact hu'.busy
          · simp only [getD_set _ _ _ _ hlen, hke, if_false]; exact hu'.header
          · have hst := hu'.stage
            unfold StageOk at hst ⊢
            cases hstage : u.stage with
            | writing =>
              simp only [hstage] at hst ⊢
              obtain ⟨data, done, h1, h2, h3⟩ := hst
              refine ⟨data, done, (issueWrite_write hke).mpr h1, ?_, ?_⟩
              · rw [h2]; exact himg.symm
              · intro hd; exact (h3 hd).trans himg.symm
            | flushing =>
              simp only [hstage] at hst ⊢
              obtain ⟨snap, h1, h2⟩ := hst
              refine ⟨_, issueWrite_flush_of hke h1, ?_⟩
              rintro v (hv | ⟨hc, -⟩)
              · exact (h2 v hv).trans himg.symm
              · exfalso; apply hsec; simp only [covers] at hc; omega
      · intro k' hu
        by_cases hke : k' = k
        · subst hke; simp at hu
        · simp only [upd_ne _ _ hke] at hu
          simp only [ops_issueWrite_ne _ _ _ _ hke, h.noupd k' hu, Option.map_none]
      · intro k1 u1 k2 u2 h1 h2 he
        by_cases hk1 : k1 = k
        · by_cases hk2 : k2 = k
          · rw [hk1, hk2]
          · subst hk1
            simp only [upd_same, Option.some.injEq] at h1
            simp only [upd_ne _ _ hk2] at h2
            subst h1
            exact absurd he.symm (hother k2 u2 h2)
        · simp only [upd_ne _ _ hk1] at h1
          by_cases hk2 : k2 = k
          · subst hk2
            simp only [upd_same, Option.some.injEq] at h2
            subst h2
            exact absurd he (hother k1 u1 h1)
          · simp only [upd_ne _ _ hk2] at h2
            exact h.uniq k1 u1 k2 u2 h1 h2 he
      · intro k' m' hm
        exact h.queue k' m' (hqq k' m' hm)
    · -- the submit failed: everything undone
      simp only [Option.some.injEq] at hs
      subst hs
      have hres : (s.fl.hdrs.getD k 0 ||| mask) &&& ~~~mask = s.fl.hdrs.getD k 0 := by
        rcases hkq.2 with ⟨rfl, -⟩ | rfl
        · exact set_clear_F _ hflag
        · exact set_clear_W _ hflag
      have hsame : s.fl.hdrs.set k ((s.fl.hdrs.getD k 0 ||| mask) &&& ~~~mask) = s.fl.hdrs := by
        rw [hres]
        apply List.ext_getElem?
        intro j
        by_cases hj : j = k
        · subst hj; simp [List.getD_eq_getElem?_getD, List.getElem?_eq_getElem hlen, hlen]
        · rw [List.getElem?_set_ne (Ne.symm hj)]
      simp only [hsame]
      exact h.frame ⟨rfl, rfl, rfl⟩ rfl (fun k' m' hm => Or.inl (hqq k' m' hm)) (fun _ => Iff.rfl) (fun _ => rfl)
        (fun _ => id) (fun _ => id)

/-- Undoing an update whose device request is gone. -/
theorem revert_inv {c : Cfg D} {mv : Nat → Bytes} {s : Sys D} (h : MetaInv c mv s) {k : Nat} {u : Update}
    (hu : s.fl.updates k = some u) (ok : Bool) (fl' : Flusher)
    (h1 : fl'.hdrs = s.fl.hdrs.set k (s.fl.hdrs.getD k 0 &&& ~~~u.mask)) (h2 : fl'.busy = Disk.upd s.fl.busy u.sector false)
    (h3 : fl'.updates = Disk.upd s.fl.updates k none) (h4 : fl'.queue = s.fl.queue) :
    MetaInv c mv { s with m := s.m.complete k ok, fl := fl' } := by
  have huk := h.upd k u hu
  have hlen : k < s.fl.hdrs.length := by rw [h.len]; exact huk.kn
  have hk0 := h.hdr k huk.kn
  have hother : ∀ k' u', k' ≠ k → s.fl.updates k' = some u' → u'.sector ≠ u.sector := by
    intro k' u' hne hu' he
    exact hne (h.uniq k' u' k u hu' hu he)
  refine ⟨?_, ?_, ?_, ?_, ?_, ?_, ?_, h.dev.complete _ _⟩
  · simp only [h1, List.length_set]; exact h.len
  · intro k' hk'
    simp only [h1, getD_set _ _ _ _ hlen]
    split
    · rename_i he
      subst he
      rcases huk.mask with ⟨hm, hf⟩ | ⟨hm, hw⟩
      · rw [hm]
        exact ⟨by rw [flag_clear_F_S]; exact hk0.src, fun h5 => absurd h5 hf, fun h5 => by rw [flag_clear_F_W]; exact hk0.written h5,
          fun h5 => by rw [flag_clear_F_F] at h5; simp at h5⟩
      · rw [hm]
        exact ⟨by rw [flag_clear_W_S]; exact hk0.src, fun h5 => by rw [flag_clear_W_F]; exact hk0.fetched h5,
          fun h5 => by simp only at h5; rw [hw] at h5; simp at h5,
          fun h5 => by rw [flag_clear_W_F] at h5; exact hk0.settled h5⟩
    · exact (h.hdr k' hk').mono id id id
  · intro x v hp
    exact (h.pers x v hp.1).mono fun k' _ _ hh => hh.mono id id id
  · intro k' u' hu'
    simp only [h3] at hu'
    by_cases hke : k' = k
    · subst hke; simp at hu'
    · rw [upd_ne _ _ hke] at hu'
      have hb := h.upd k' u' hu'
      have hsec := hother k' u' hke hu'
      have hgrp : k / 508 ≠ k' / 508 := by
        intro he; apply hsec; rw [hb.sector, huk.sector]; unfold stripeIdToSector; omega
      have himg : secImage ({ s with m := s.m.complete k ok, fl := fl' } : Sys D) k' = secImage s k' := by
        unfold secImage; simp only [h1]; rw [groupHeaders_set_ne _ _ _ _ hgrp]
      refine ⟨hb.kn, hb.sector, ?_, ?_, hb.mask, hb.set, ?_⟩
      · simp only [h2, upd_ne _ _ hsec]; exact hb.busy
      · simp only [h1, getD_set _ _ _ _ hlen, hke, if_false]; exact hb.header
      · have hst := hb.stage
        unfold StageOk at hst ⊢
        rw [himg]
        cases hstage : u'.stage with
        | writing =>
          simp only [hstage] at hst ⊢
          obtain ⟨data, done, g1, g2, g3⟩ := hst
          exact ⟨data, done, by rw [ops_complete_ne _ _ hke]; exact g1, g2, g3⟩
        | flushing =>
          simp only [hstage] at hst ⊢
          obtain ⟨snap, g1, g2⟩ := hst
          exact ⟨snap, by rw [ops_complete_ne _ _ hke]; exact g1, g2⟩
  · intro k' hu'
    by_cases hke : k' = k
    · subst hke; exact ops_complete_same _ _ _
    · simp only [h3, upd_ne _ _ hke] at hu'
      simp only [ops_complete_ne _ _ hke]
      exact h.noupd k' hu'
  · intro k1 u1 k2 u2 g1 g2 he
    simp only [h3] at g1 g2
    by_cases hk1 : k1 = k
    · subst hk1; simp at g1
    · by_cases hk2 : k2 = k
      · subst hk2; simp at g2
      · rw [upd_ne _ _ hk1] at g1
        rw [upd_ne _ _ hk2] at g2
        exact h.uniq k1 u1 k2 u2 g1 g2 he
  · intro k' m' hm
    simp only [h4] at hm
    exact h.queue k' m' hm

theorem metaDone_inv {c : Cfg D} {mv : Nat → Bytes} {s : Sys D} (h : MetaInv c mv s) (k : Nat) (ok submitOk : Bool)
    (hc : s.m.mayComplete k ok) : MetaInv c mv (metaDone s k ok submitOk) := by
  unfold metaDone
  simp only
  cases hu : s.fl.updates k with
  | none =>
    exfalso
    obtain ⟨op, ho, -⟩ := hc
    rw [h.noupd k hu] at ho; simp at ho
  | some u =>
    have huk := h.upd k u hu
    simp only
    cases ok with
    | false =>
      simp only [Bool.false_eq_true, if_false]
      exact revert_inv h hu false _ rfl rfl rfl rfl
    | true =>
      simp only [if_true]
      cases hstage : u.stage with
      | writing =>
        simp only
        cases submitOk with
        | false =>
          simp only [Bool.false_eq_true, if_false]
          exact revert_inv h hu true _ rfl rfl rfl rfl
        | true =>
          simp only [if_true]
          have hst := huk.stage
          unfold StageOk at hst
          simp only [hstage] at hst
          obtain ⟨data, done, ho, hd, hv⟩ := hst
          have hdone : done u.sector = true := by
            obtain ⟨op, ho', hfin⟩ := hc
            rw [ho] at ho'
            simp only [Option.some.injEq] at ho'
            subst ho'
            exact hfin rfl u.sector ⟨Nat.le_refl _, by omega⟩
          have hvol := hv hdone
          refine ⟨h.len, ?_, ?_, ?_, ?_, ?_, h.queue, (h.dev.complete _ _).issueFlush _⟩
          · intro k' hk'; exact (h.hdr k' hk').mono id id id
          · intro x v hp
            exact (h.pers x v hp.1).mono fun _ _ _ hh => hh.mono id id id
          · intro k' u' hu'
            by_cases hke : k' = k
            · subst hke
              simp only [upd_same, Option.some.injEq] at hu'
              subst hu'
              refine ⟨huk.kn, huk.sector, huk.busy, huk.header, huk.mask, huk.set, ?_⟩
              unfold StageOk
              simp only
              refine ⟨_, by simp only [Dev.issueFlush, upd_same]; rfl, ?_⟩
              rintro v (hv' | hv')
              · rw [hv']; exact hvol
              · exfalso
                obtain ⟨k2, off, cnt, dt, dn, h2, hcov, -⟩ := hv'
                obtain ⟨hne, h2⟩ := ops_complete_some h2
                cases hu2 : s.fl.updates k2 with
                | none => rw [h.noupd k2 hu2] at h2; simp at h2
                | some u2 =>
                  have hst2 := (h.upd k2 u2 hu2).stage
                  unfold StageOk at hst2
                  cases hs2 : u2.stage with
                  | writing =>
                    simp only [hs2] at hst2
                    obtain ⟨d', dn', h4, -⟩ := hst2
                    rw [h2] at h4
                    simp only [Option.some.injEq, Op.write.injEq] at h4
                    obtain ⟨rfl, rfl, rfl, rfl⟩ := h4
                    simp only [covers] at hcov
                    exact hne (h.uniq k2 u2 k' u hu2 hu (by omega))
                  | flushing =>
                    simp only [hs2] at hst2
                    obtain ⟨snap, h4, -⟩ := hst2
                    rw [h2] at h4; simp at h4
            · simp only [upd_ne _ _ hke] at hu'
              have hb := h.upd k' u' hu'
              refine ⟨hb.kn, hb.sector, hb.busy, hb.header, hb.mask, hb.set, ?_⟩
              have hst := hb.stage
              unfold StageOk at hst ⊢
              have hopk : ((s.m.complete k true).issueFlush k).ops k' = s.m.ops k' := by
                simp only [Dev.issueFlush, upd_ne _ _ hke]
                exact ops_complete_ne _ _ hke
              cases hs' : u'.stage with
              | writing =>
                simp only [hs'] at hst ⊢
                rw [hopk]
                exact hst
              | flushing =>
                simp only [hs'] at hst ⊢
                rw [hopk]
                exact hst
          · intro k' hu'
            by_cases hke : k' = k
            · subst hke; simp at hu'
            · simp only [upd_ne _ _ hke] at hu'
              simp only [Dev.issueFlush, upd_ne _ _ hke, ops_complete_ne _ _ hke]
              exact h.noupd k' hu'
          · intro k1 u1 k2 u2 g1 g2 he
            have conv : ∀ k1 u1, Disk.upd s.fl.updates k (some { u with stage := Stage.flushing }) k1 = some u1 →
                ∃ u0, s.fl.updates k1 = some u0 ∧ u0.sector = u1.sector := by
              intro k1 u1 g1
              by_cases hk1 : k1 = k
              · subst hk1
                simp only [upd_same, Option.some.injEq] at g1
                subst g1
                exact ⟨u, hu, rfl⟩
              · rw [upd_ne _ _ hk1] at g1
                exact ⟨u1, g1, rfl⟩
            obtain ⟨v1, a1, b1⟩ := conv k1 u1 g1
            obtain ⟨v2, a2, b2⟩ := conv k2 u2 g2
            exact h.uniq k1 v1 k2 v2 a1 a2 (by rw [b1, b2, he])
      | flushing =>
        simp only
        have hst := huk.stage
        unfold StageOk at hst
        simp only [hstage] at hst
        obtain ⟨snap, ho, hsnap⟩ := hst
        have hk0 := h.hdr k huk.kn
        -- header bytes under the new shared state
        have hmono : ∀ (m' : Dev Nat Bytes) (fl' : Flusher) k' hb, HdrOk c s k' hb → (k' = k → hb = s.fl.hdrs.getD k 0) →
            HdrOk c ({ s with m := m', fl := fl', sh := s.sh.setHeader k u.header } : Sys D) k' hb := by
          intro m' fl' k' hb hh hk
          refine ⟨hh.src, ?_, ?_, ?_⟩
          · intro hf
            by_cases hke : k' = k
            · rw [hk hke]
              rw [← huk.header]
              simp only [Shared.setHeader] at hf
              split at hf
              · assumption
              · rw [huk.header, ← hk hke]; exact hh.fetched hf
            · simp only [Shared.setHeader] at hf
              split at hf
              · rw [upd_ne _ _ hke] at hf; exact hh.fetched hf
              · exact hh.fetched hf
          · intro hf
            by_cases hke : k' = k
            · rw [hk hke]
              rw [← huk.header]
              simp only [Shared.setHeader] at hf
              split at hf
              · assumption
              · rw [huk.header, ← hk hke]; exact hh.written hf
            · simp only [Shared.setHeader] at hf
              split at hf
              · rw [upd_ne _ _ hke] at hf; exact hh.written hf
              · exact hh.written hf
          · intro hf
            rcases hh.settled hf with h1 | h1
            · left; simp only [isLocal_setHeader, h1, Bool.true_or]
            · exact Or.inr h1
        refine ⟨h.len, ?_, ?_, ?_, ?_, ?_, h.queue, h.dev.complete _ _⟩
        · intro k' hk'
          apply hmono
          · exact h.hdr k' hk'
          · intro he; rw [he]
        · intro x v hp
          have hs0 := h.pers x v hp.1
          refine ⟨hs0.len, hs0.valid, ?_, hs0.other⟩
          intro k' hk' hx
          apply hmono
          · exact hs0.hdr k' hk' hx
          · intro he
            subst he
            have hv : v = secImage s k' := hsnap v (by rw [huk.sector, hx]; exact hp.2 snap ho rfl)
            rw [hv]
            exact writeSector_byte s.fl.hdrs k' (by rw [h.len]; exact hk')
        · intro k' u' hu'
          by_cases hke : k' = k
          · subst hke; simp at hu'
          · simp only [upd_ne _ _ hke] at hu'
            have hb := h.upd k' u' hu'
            have hsec : u'.sector ≠ u.sector := fun he => hke (h.uniq k' u' k u hu' hu he)
            refine ⟨hb.kn, hb.sector, ?_, hb.header, ?_, hb.set, ?_⟩
            · simp only [upd_ne _ _ hsec]; exact hb.busy
            · have e1 : (s.sh.setHeader k u.header).fs k' = s.sh.fs k' := by
                simp only [Shared.setHeader]; split
                · rw [upd_ne _ _ hke]
                · rfl
              have e2 : (s.sh.setHeader k u.header).ws k' = s.sh.ws k' := by
                simp only [Shared.setHeader]; split
                · rw [upd_ne _ _ hke]
                · rfl
              simp only [e1, e2]
              exact hb.mask
            · have hst := hb.stage
              unfold StageOk at hst ⊢
              cases hs' : u'.stage with
              | writing =>
                simp only [hs'] at hst ⊢
                rw [ops_complete_ne _ _ hke]
                exact hst
              | flushing =>
                simp only [hs'] at hst ⊢
                rw [ops_complete_ne _ _ hke]
                exact hst
        · intro k' hu'
          by_cases hke : k' = k
          · subst hke; exact ops_complete_same _ _ _
          · simp only [upd_ne _ _ hke] at hu'
            simp only [ops_complete_ne _ _ hke]
            exact h.noupd k' hu'
        · intro k1 u1 k2 u2 g1 g2 he
          by_cases hk1 : k1 = k
          · subst hk1; simp at g1
          · by_cases hk2 : k2 = k
            · subst hk2; simp at g2
            · simp only [upd_ne _ _ hk1] at g1
              simp only [upd_ne _ _ hk2] at g2
              exact h.uniq k1 u1 k2 u2 g1 g2 he

/-- When the flag update of `k` finishes, newly local stripes are settled ones. -/
theorem metaDone_local {c : Cfg D} {mv : Nat → Bytes} {s : Sys D} (h : MetaInv c mv s) (k : Nat) (ok submitOk : Bool)
    (k' : Nat) (hl : (metaDone s k ok submitOk).sh.isLocal k' = true) : settled s k' := by
  unfold metaDone at hl
  simp only at hl
  cases hu : s.fl.updates k with
  | none => simp only [hu] at hl; exact Or.inl hl
  | some u =>
    simp only [hu] at hl
    cases ok with
    | false => simp only [Bool.false_eq_true, if_false] at hl; exact Or.inl hl
    | true =>
      simp only [if_true] at hl
      cases hstage : u.stage with
      | writing =>
        simp only [hstage] at hl
        cases submitOk <;> simp at hl <;> exact Or.inl hl
      | flushing =>
        simp only [hstage, isLocal_setHeader, Bool.or_eq_true, Bool.and_eq_true, decide_eq_true_eq] at hl
        rcases hl with hl | ⟨rfl, hf⟩
        · exact Or.inl hl
        · rw [(h.upd k' u hu).header] at hf
          exact (h.hdr k' (h.upd k' u hu).kn).settled hf

@[simp] theorem metaDone_fe (s : Sys D) (k : Nat) (ok submitOk : Bool) : (metaDone s k ok submitOk).fe = s.fe := by
  unfold metaDone; simp only; split
  · rfl
  · split
    · split
      · split <;> rfl
      · rfl
    · rfl
@[simp] theorem metaDone_t (s : Sys D) (k : Nat) (ok submitOk : Bool) : (metaDone s k ok submitOk).t = s.t := by
  unfold metaDone; simp only; split
  · rfl
  · split
    · split
      · split <;> rfl
      · rfl
    · rfl
@[simp] theorem metaDone_ch (s : Sys D) (k : Nat) (ok submitOk : Bool) : (metaDone s k ok submitOk).ch = s.ch := by
  unfold metaDone; simp only; split
  · rfl
  · split
    · split
      · split <;> rfl
      · rfl
    · rfl
@[simp] theorem metaDone_msgs (s : Sys D) (k : Nat) (ok submitOk : Bool) : (metaDone s k ok submitOk).msgs = s.msgs := by
  unfold metaDone; simp only; split
  · rfl
  · split
    · split
      · split <;> rfl
      · rfl
    · rfl

theorem startMeta_frame {s s' : Sys D} {submitOk : Bool} (h : startMeta s submitOk = some s') :
    s'.fe = s.fe ∧ s'.t = s.t ∧ s'.ch = s.ch ∧ s'.msgs = s.msgs ∧ s'.sh = s.sh := by
  unfold startMeta at h
  split at h
  · simp at h
  · split at h
    · simp at h
    · split at h
      · simp at h
      · split at h
        · simp only [Option.some.injEq] at h; subst h; exact ⟨rfl, rfl, rfl, rfl, rfl⟩
        · split at h
          · simp only [Option.some.injEq] at h; subst h; exact ⟨rfl, rfl, rfl, rfl, rfl⟩
          · simp only [Option.some.injEq] at h; subst h; exact ⟨rfl, rfl, rfl, rfl, rfl⟩

end Verif.Lazy
