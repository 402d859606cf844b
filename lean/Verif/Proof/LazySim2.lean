import Verif.Proof.LazySim

/-! Steps of the simulation that change the data device. -/

set_option maxRecDepth 8000

namespace Verif.Lazy
open Verif Verif.Metadata Verif.Disk

variable {D : Type}

/-- Request `id` is pending at most at the data device. -/
def OnlyT (s : Sys D) (q id : Nat) : Prop :=
  (∀ r ∈ (s.ch q).queue, r.id ≠ id) ∧ (∀ p ∈ (s.ch q).finished, p.1 ≠ id) ∧ (s.ch q).img id = none

theorem OnlyT.locs {s : Sys D} {q id : Nat} (h : OnlyT s q id) :
    locs s q id = (s.t.kinds (.guest q id)).isSome.toNat := by
  unfold Lazy.locs
  have h1 : (s.ch q).queue.countP (fun r => decide (r.id = id)) = 0 := by
    rw [List.countP_eq_zero]; intro r hr; simpa using h.1 r hr
  have h2 : (s.ch q).finished.countP (fun p => decide (p.1 = id)) = 0 := by
    rw [List.countP_eq_zero]; intro r hr; simpa using h.2.1 r hr
  rw [h1, h2, h.2.2]; simp

theorem Sim.onlyT {c : Cfg D} {g : Nat → D} {s : Sys D} {a : Disk D} {ex} (h : Sim c g s a ex) {q id : Nat}
    (hk : s.t.kinds (.guest q id) ≠ none) : OnlyT s q id := by
  have h1 := h.one q id
  unfold Lazy.locs at h1
  have h2 : (s.t.kinds (.guest q id)).isSome.toNat = 1 := by
    cases hh : s.t.kinds (.guest q id) with
    | none => exact absurd hh hk
    | some _ => rfl
  rw [h2] at h1
  refine ⟨?_, ?_, ?_⟩
  · have : (s.ch q).queue.countP (fun r => decide (r.id = id)) = 0 := by omega
    rw [List.countP_eq_zero] at this
    intro r hr; simpa using this r hr
  · have : (s.ch q).finished.countP (fun p => decide (p.1 = id)) = 0 := by omega
    rw [List.countP_eq_zero] at this
    intro r hr; simpa using this r hr
  · cases hh : (s.ch q).img id with
    | none => rfl
    | some _ => rw [hh] at h1; simp at h1

/-- Both devices change for one guest request only. -/
theorem Sim.guestChange {c : Cfg D} {g : Nat → D} {s : Sys D} {a : Disk D} (h : Sim c g s a none) {q id : Nat} {t' : Dev Owner D} {a' : Disk D}
    (hex : OnlyT s q id)
    (htne : ∀ o, o ≠ .guest q id → t'.ops o = s.t.ops o) (hane : ∀ o, o ≠ (q, id) → a'.ops o = a.ops o)
    (htinv : t'.Inv) (hainv : a'.Inv)
    (hvol : ∀ x, x < c.tsec → ready c s x → t'.vol x = a'.vol x)
    (hav : ∀ x, s.sh.isLocal (x / c.ss) = false → a'.vol x = a.vol x ∧ t'.vol x = s.t.vol x)
    (hpers : ∀ x v, x < c.tsec → ready c s x → t'.pers x v → a'.pers x v)
    (htp : ∀ x v, t'.pers x v → s.t.pers x v)
    (hfetch : ∀ k, s.t.kinds (.fetch k) ≠ none → s.sh.isLocal k = false)
    (hgop : ∀ op, t'.ops (.guest q id) = some op → GuestOp c { s with t := t' } a' (q, id) op)
    (hnone : t'.ops (.guest q id) = none → a'.ops (q, id) = none) :
    Sim c g { s with t := t' } a' none := by
  have hlocs : ∀ q' id', (q', id') ≠ (q, id) → locs { s with t := t' } q' id' = locs s q' id' := by
    intro q' id' hne
    unfold locs
    have : t'.kinds (.guest q' id') = s.t.kinds (.guest q' id') := by
      unfold Dev.kinds
      rw [htne _ (by intro he; apply hne; cases he; rfl)]
    simp only [this]
  have hloc0 : locs { s with t := t' } q id = (t'.kinds (.guest q id)).isSome.toNat :=
    OnlyT.locs (s := { s with t := t' }) hex
  refine ⟨htinv, hainv, h.nosrc, hvol, hpers, ?_, ?_, ?_, ?_, ?_, ?_, ?_, ?_, ?_, ?_, by simp⟩
  · intro x hx hl; rw [(hav x hl).1]; exact h.src x hx hl
  · intro x hx hs hl v hp; rw [(hav x hl).2]; exact h.stable x hx hs hl v (htp x v hp)
  · intro k off cnt data done hk x hx
    simp only [htne _ (show Owner.fetch k ≠ .guest q id by simp)] at hk
    obtain ⟨h1, h2, h3⟩ := h.fwrite k off cnt data done hk x hx
    refine ⟨h1, h2, fun hd => ?_⟩
    have hl := hfetch k (by rw [kinds_of_ops hk]; simp)
    simp only [(hav x (by rw [h1]; exact hl)).2]
    exact h3 hd
  · intro k snap hk x hxk hxt
    simp only [htne _ (show Owner.fetch k ≠ .guest q id by simp)] at hk
    have hl := hfetch k (by rw [kinds_of_ops hk]; simp)
    simp only [(hav x (by rw [hxk]; exact hl)).2]
    exact h.fflush k snap hk x hxk hxt
  · intro q' id' op hk
    by_cases he : (q', id') = (q, id)
    · cases he; exact hgop op hk
    · simp only [htne _ (show Owner.guest q' id' ≠ .guest q id by intro h1; apply he; cases h1; rfl)] at hk
      have := h.gop q' id' op hk
      cases op with
      | read => exact ⟨by rw [hane _ he]; exact this.1, this.2⟩
      | write => exact ⟨by rw [hane _ he]; exact this.1, this.2⟩
      | flush snap =>
        obtain ⟨sa, h1, h2⟩ := this
        exact ⟨sa, by rw [hane _ he]; exact h1, fun x v hx hs hp => h2 x v hx hs (htp x v hp)⟩
  · intro q' r hr
    have hne : (q', r.id) ≠ (q, id) := by rintro he; cases he; exact hex.1 r hr rfl
    rw [hane _ hne]; exact h.queue q' r hr
  · intro q' id' ok hr
    have hne : (q', id') ≠ (q, id) := by rintro he; cases he; exact hex.2.1 _ hr rfl
    rw [hane _ hne]; exact h.fin q' id' ok hr
  · intro q' id' off cnt hr
    have hne : (q', id') ≠ (q, id) := by
      rintro he; cases he
      have := hex.2.2
      simp only at hr
      rw [this] at hr; simp at hr
    rw [hane _ hne]; exact h.img q' id' off cnt hr
  · intro q' id'
    by_cases he : (q', id') = (q, id)
    · cases he; rw [hloc0]; cases (t'.kinds (.guest q id)).isSome <;> simp
    · rw [hlocs _ _ he]; exact h.one q' id'
  · intro q' id' hz
    by_cases he : (q', id') = (q, id)
    · cases he
      rw [hloc0] at hz
      left
      apply hnone
      apply kinds_none.mp
      cases hh : t'.kinds (.guest q id) with
      | none => rfl
      | some _ => rw [hh] at hz; simp at hz
    · rw [hlocs _ _ he] at hz
      rw [hane _ he]; exact h.free q' id' hz

theorem fetch_remote {c : Cfg D} {s : Sys D} (hf : FetchInv c s) (k : Nat) (hk : s.t.kinds (.fetch k) ≠ none) :
    s.sh.isLocal k = false := ((hf.ok k).busy hk).1

/-- Guest flush: accepted by both. -/
theorem sim_flush {c : Cfg D} {g : Nat → D} {s : Sys D} {a : Disk D} (hf : FetchInv c s) (h : Sim c g s a none) {q id : Nat}
    (hid : s.idFree q id) : Sim c g { s with t := s.t.issueFlush (.guest q id) } (a.issue (q, id) .flush) none := by
  refine h.guestChange (q := q) (id := id) ⟨hid.2.2.1, hid.2.2.2, hid.2.1⟩ ?_ ?_ (h.tinv.issueFlush _) (h.ainv.issueFlush _) h.vol
    (fun x _ => ⟨rfl, rfl⟩) h.pers (fun x v hp => hp) (fetch_remote hf) ?_ ?_
  · intro o hne; simp [Dev.issueFlush, upd_ne _ _ hne]
  · intro o hne; simp [Disk.issue, Dev.issueFlush, upd_ne _ _ hne]
  · intro op hop
    simp only [Dev.issueFlush, upd_same, Option.some.injEq] at hop
    subst hop
    refine ⟨_, by simp only [Disk.issue, Dev.issueFlush, upd_same]; rfl, ?_⟩
    intro x v hx hs hp hsn
    rcases hsn with hv | hv
    · left; rw [hv]; exact h.vol x hx hs
    · right
      obtain ⟨o, off, cnt, data, done, h1, h2, h3⟩ := hv
      cases o with
      | guest q' id' => exact ⟨(q', id'), off, cnt, data, done, (h.gop q' id' _ h1).1, h2, h3⟩
      | fetch k =>
        exfalso
        have := (h.fwrite k off cnt data done h1 x h2).1
        have h4 := (hf.ok k).not_settled (by rw [kinds_of_ops h1]; simp)
        rw [← this] at h4; exact h4 hs.settled
  · intro hop; simp [Dev.issueFlush] at hop

/-- A guest request completes at the data device. -/
theorem sim_baseDone {c : Cfg D} {g : Nat → D} {s : Sys D} {a : Disk D} (hf : FetchInv c s) (h : Sim c g s a none) {q id : Nat} {ok : Bool}
    (hm : s.t.mayComplete (.guest q id) ok) :
    a.mayComplete (q, id) ok ∧ a.result (q, id) ok = s.t.result (.guest q id) ok ∧
    Sim c g { s with t := s.t.complete (.guest q id) ok } (a.complete (q, id) ok) none := by
  obtain ⟨op, hop, hfin⟩ := hm
  have hk : s.t.kinds (.guest q id) ≠ none := by rw [kinds_of_ops hop]; simp
  have hg := h.gop q id op hop
  have hsim : (∀ snap snapA, op = .flush snap → a.ops (q, id) = some (.flush snapA) → 
        ∀ x v, x < c.tsec → ready c s x → s.t.pers x v → snap x v → snapA x v) →
      ((∀ snap, op ≠ .flush snap) → ∀ snapA, a.ops (q, id) ≠ some (.flush snapA)) →
      Sim c g { s with t := s.t.complete (.guest q id) ok } (a.complete (q, id) ok) none := by
    intro hfl hnfl
    refine h.guestChange (q := q) (id := id) (h.onlyT hk) (fun o hne => ops_complete_ne _ _ hne) (fun o hne => ops_complete_ne _ _ hne)
      (h.tinv.complete _ _) (h.ainv.complete _ _) h.vol (fun x _ => ⟨rfl, rfl⟩) ?_ (fun x v hp => hp.1) (fetch_remote hf) ?_ ?_
    · intro x v hx hs hp
      refine ⟨h.pers x v hx hs hp.1, ?_⟩
      intro snapA hA hok
      cases op with
      | flush snap => exact hfl snap snapA rfl hA x v hx hs hp.1 (hp.2 snap hop hok)
      | read => exact absurd hA (hnfl (by simp) snapA)
      | write => exact absurd hA (hnfl (by simp) snapA)
    · intro op' h'; rw [ops_complete_same] at h'; simp at h'
    · intro _; exact ops_complete_same _ _ _
  cases op with
  | read off cnt got =>
    refine ⟨⟨_, hg.1, hfin⟩, by simp [Dev.result, hop, hg.1], hsim (by simp) ?_⟩
    intro _ snapA; rw [hg.1]; simp
  | write off cnt data done =>
    refine ⟨⟨_, hg.1, hfin⟩, by simp [Dev.result, hop, hg.1], hsim (by simp) ?_⟩
    intro _ snapA; rw [hg.1]; simp
  | flush snap =>
    obtain ⟨sa, h1, h2⟩ := hg
    refine ⟨⟨_, h1, fun _ => trivial⟩, by simp [Dev.result, hop, h1], hsim ?_ ?_⟩
    · intro snap' snapA' he hA
      simp only [Op.flush.injEq] at he
      subst he
      rw [h1] at hA
      simp only [Option.some.injEq, Op.flush.injEq] at hA
      subst hA
      exact h2
    · intro hn; exact absurd rfl (hn snap)

/-- A sector of a guest request moves. -/
theorem sim_exec_guest {c : Cfg D} {g : Nat → D} {s : Sys D} {a : Disk D} (hf : FetchInv c s) (h : Sim c g s a none) (q id x : Nat) :
    ∃ a', Disk.Run a [] a' ∧ Sim c g { s with t := s.t.exec (.guest q id) x } a' none := by
  rcases exec_cases s.t (.guest q id) x with he | ⟨off, cnt, got, hop, hc, he⟩ | ⟨off, cnt, data, done, hop, hc, he⟩
  · exact ⟨a, .nil a, by rw [he]; exact h⟩
  · have hk : s.t.kinds (.guest q id) ≠ none := by rw [kinds_of_ops hop]; simp
    obtain ⟨h1, h2⟩ := h.gop q id _ hop
    refine ⟨Dev.exec a (q, id) x, .one (.exec a _ x), ?_⟩
    have hv := h.vol x (h2 x hc).1 (Or.inl (h2 x hc).2)
    refine h.guestChange (q := q) (id := id) (h.onlyT hk) (fun o hne => ops_exec_ne _ _ hne) (fun o hne => ops_exec_ne _ _ hne)
      (h.tinv.exec _ _) (h.ainv.exec _ _) ?_ ?_ ?_ ?_ (fetch_remote hf) ?_ ?_
    · rw [he, exec_read h1 hc]; exact h.vol
    · rw [he, exec_read h1 hc]; exact fun _ _ => ⟨rfl, rfl⟩
    · simp only [pers_exec]; exact h.pers
    · simp only [pers_exec]; exact fun _ _ hh => hh
    · intro op hop'
      rw [exec_read hop hc] at hop'
      simp only [upd_same, Option.some.injEq] at hop'
      subst hop'
      refine ⟨?_, h2⟩
      rw [exec_read h1 hc, hv]
      simp
    · intro hn; rw [exec_read hop hc] at hn; simp at hn
  · have hk : s.t.kinds (.guest q id) ≠ none := by rw [kinds_of_ops hop]; simp
    obtain ⟨h1, h2⟩ := h.gop q id _ hop
    refine ⟨Dev.exec a (q, id) x, .one (.exec a _ x), ?_⟩
    refine h.guestChange (q := q) (id := id) (h.onlyT hk) (fun o hne => ops_exec_ne _ _ hne) (fun o hne => ops_exec_ne _ _ hne)
      (h.tinv.exec _ _) (h.ainv.exec _ _) ?_ ?_ ?_ ?_ (fetch_remote hf) ?_ ?_
    · intro y hy hs
      rw [he, exec_write h1 hc]
      by_cases hyx : y = x
      · subst hyx; simp
      · simp only [upd_ne _ _ hyx]; exact h.vol y hy hs
    · intro y hy
      have hyx : y ≠ x := by rintro rfl; rw [(h2 y hc).2] at hy; simp at hy
      rw [he, exec_write h1 hc]
      simp only [upd_ne _ _ hyx]
      exact ⟨trivial, trivial⟩
    · simp only [pers_exec]; exact h.pers
    · simp only [pers_exec]; exact fun _ _ hh => hh
    · intro op hop'
      rw [exec_write hop hc] at hop'
      simp only [upd_same, Option.some.injEq] at hop'
      subst hop'
      refine ⟨?_, h2⟩
      rw [exec_write h1 hc]
      simp
    · intro hn; rw [exec_write hop hc] at hn; simp at hn

/-- A change of the data device for one stripe that is not settled. -/
theorem Sim.fetchChange {c : Cfg D} {g : Nat → D} {s s' : Sys D} {a : Disk D} (h : Sim c g s a none) {k : Nat}
    (hch : s'.ch = s.ch)
    (hn : ∀ k, s'.sh.fs k = .noSource → s.sh.fs k = .noSource)
    (hs : ∀ k', settled s' k' → k' ≠ k → settled s k')
    (hloc : ∀ k, s'.sh.isLocal k = s.sh.isLocal k) (hrem : s.sh.isLocal k = false)
    (hset : settled s' k → ∀ x, x / c.ss = k → x < c.tsec →
      (∀ v, c.src x = some v → s'.t.vol x = v) ∧ ∀ v, s'.t.pers x v → v = s'.t.vol x)
    (htinv : s'.t.Inv)
    (hkinds : ∀ q id, s'.t.kinds (.guest q id) = s.t.kinds (.guest q id))
    (hops : ∀ o, o ≠ .fetch k → ∀ op, s'.t.ops o = some op → ∃ op0, s.t.ops o = some op0 ∧
      (match op0, op with
        | .flush s0, .flush s1 => ∀ x v, x / c.ss ≠ k → s1 x v → s0 x v
        | op0, op => op0 = op))
    (hvol : ∀ x, x / c.ss ≠ k → s'.t.vol x = s.t.vol x)
    (hpers : ∀ x v, x / c.ss ≠ k → s'.t.pers x v → s.t.pers x v)
    (hfw : ∀ off cnt data done, s'.t.ops (.fetch k) = some (.write off cnt data done) → ∀ x, covers off cnt x →
      x / c.ss = k ∧ (∀ v, c.src x = some v → data x = v) ∧ (done x = true → s'.t.vol x = data x))
    (hff : ∀ snap, s'.t.ops (.fetch k) = some (.flush snap) → ∀ x, x / c.ss = k → x < c.tsec →
      (∀ v, c.src x = some v → s'.t.vol x = v) ∧ ∀ w, snap x w → w = s'.t.vol x) :
    Sim c g s' a none := by
  have hlocs : ∀ q id, locs s' q id = locs s q id := locs_t hkinds hch
  have hl : ∀ k, s.sh.isLocal k = true → s'.sh.isLocal k = true := fun k => by rw [hloc]; exact id
  have hrdy : ∀ x, ready c s' x → x / c.ss ≠ k → ready c s x := by
    rintro x (h1 | h1) hk
    · exact .inl (by rw [← hloc]; exact h1)
    · exact (hs _ (.inr h1.2) hk).imp_right fun h2 => ⟨h1.1, h2⟩
  have hat : ∀ x, x < c.tsec → ready c s' x → x / c.ss = k → s'.t.vol x = a.vol x ∧ ∀ v, s'.t.pers x v → v = a.vol x := by
    intro x hx hr hk
    obtain ⟨h1, h2⟩ := hset (hk ▸ hr.settled) x hk hx
    rcases hr with h3 | ⟨h3, -⟩
    · rw [hloc, hk, hrem] at h3; simp at h3
    · obtain ⟨v, hv⟩ := Option.ne_none_iff_exists'.mp h3
      have h4 := h.src x hx (by rw [hk]; exact hrem)
      rw [hv] at h4
      have h5 := h1 v hv
      exact ⟨by rw [h5]; exact h4.symm, fun w hw => by rw [h2 w hw, h5]; exact h4.symm⟩
  refine ⟨htinv, h.ainv, fun k => ⟨fun hk => (h.nosrc k).1 (hn k hk), fun hk => hl k ((h.nosrc k).2 hk)⟩, ?_, ?_, ?_, ?_, ?_, ?_, ?_, ?_, ?_, ?_, ?_, ?_, by simp⟩
  · intro x hx hst
    by_cases hk : x / c.ss = k
    · exact (hat x hx hst hk).1
    · rw [hvol x hk]; exact h.vol x hx (hrdy _ hst hk)
  · intro x v hx hst hp
    by_cases hk : x / c.ss = k
    · rw [(hat x hx hst hk).2 v hp]; exact h.ainv.vol_pers x
    · exact h.pers x v hx (hrdy _ hst hk) (hpers x v hk hp)
  · intro x hd hlo
    rw [hloc] at hlo
    exact h.src x hd hlo
  · intro x hx hst hlo v hp
    by_cases hk : x / c.ss = k
    · exact (hset (hk ▸ hst) x hk hx).2 v hp
    · rw [hloc] at hlo
      rw [hvol x hk]
      exact h.stable x hx (hs _ hst hk) hlo v (hpers x v hk hp)
  · intro k' off cnt data done hk' x hx
    by_cases hkk : k' = k
    · subst hkk; exact hfw off cnt data done hk' x hx
    · obtain ⟨op0, h1, h2⟩ := hops (.fetch k') (by simpa using hkk) _ hk'
      cases op0 with
      | write =>
        simp only at h2
        rw [h2] at h1
        obtain ⟨h3, h4, h5⟩ := h.fwrite k' off cnt data done h1 x hx
        exact ⟨h3, h4, fun hd => by rw [hvol x (by rw [h3]; exact hkk)]; exact h5 hd⟩
      | read => simp at h2
      | flush => simp at h2
  · intro k' snap hk' x hxk hxt
    by_cases hkk : k' = k
    · subst hkk; exact hff snap hk' x hxk hxt
    · obtain ⟨op0, h1, h2⟩ := hops (.fetch k') (by simpa using hkk) _ hk'
      have hxk' : x / c.ss ≠ k := by rw [hxk]; exact hkk
      cases op0 with
      | write => simp at h2
      | read => simp at h2
      | flush s0 =>
        simp only at h2
        obtain ⟨h3, h4⟩ := h.fflush k' s0 h1 x hxk hxt
        rw [hvol x hxk']
        exact ⟨h3, fun w hw => h4 w (h2 x w hxk' hw)⟩
  · intro q id op hop
    obtain ⟨op0, h1, h2⟩ := hops (.guest q id) (by simp) op hop
    have h3 := h.gop q id op0 h1
    cases op with
    | read off cnt got =>
      have : op0 = .read off cnt got := by cases op0 <;> simpa using h2
      subst this
      exact ⟨h3.1, fun x hx => ⟨(h3.2 x hx).1, hl _ (h3.2 x hx).2⟩⟩
    | write off cnt data done =>
      have : op0 = .write off cnt data done := by cases op0 <;> simpa using h2
      subst this
      exact ⟨h3.1, fun x hx => ⟨(h3.2 x hx).1, hl _ (h3.2 x hx).2⟩⟩
    | flush snap =>
      cases op0 with
      | read => simp at h2
      | write => simp at h2
      | flush s0 =>
        simp only at h2
        obtain ⟨sa, h4, h5⟩ := h3
        refine ⟨sa, h4, fun x v hd hst hp hsn => ?_⟩
        by_cases hk : x / c.ss = k
        · rw [(hat x hd hst hk).2 v hp]
          exact h.ainv.vol_snap _ _ h4 x
        · exact h5 x v hd (hrdy _ hst hk) (hpers x v hk hp) (h2 x v hk hsn)
  · rw [hch]; exact h.queue
  · rw [hch]; exact h.fin
  · rw [hch]; exact h.img
  · intro q id; rw [hlocs]; exact h.one q id
  · intro q id; rw [hlocs]; exact h.free q id

theorem nosrc_of_frame {s s' : Sys D} (hl : ∀ k, s'.sh.isLocal k = s.sh.isLocal k)
    (hfs : ∀ k, s'.sh.fs k = .fetched ↔ s.sh.fs k = .fetched) (k : Nat) (h : s'.sh.fs k = .noSource) :
    s.sh.fs k = .noSource := by
  have h1 := hl k
  have h2 : s.sh.fs k ≠ .fetched := by rw [ne_eq, ← hfs, h]; simp
  simp only [Shared.isLocal, h] at h1
  simpa [h2] using h1.symm

/-- A sector of the fetcher's write moves. -/
theorem sim_exec_fetch {c : Cfg D} {g : Nat → D} (hss : 0 < c.ss) {s : Sys D} {a : Disk D} (hf : FetchInv c s) (h : Sim c g s a none) (k x : Nat) :
    Sim c g { s with t := s.t.exec (.fetch k) x } a none := by
  rcases exec_cases s.t (.fetch k) x with he | ⟨off, cnt, got, hop, hc, he⟩ | ⟨off, cnt, data, done, hop, hc, he⟩
  · rw [he]; exact h
  · exfalso
    have := ((hf.ok k).busy (by rw [kinds_of_ops hop]; simp)).2.2.2.2
    rw [kinds_of_ops hop] at this
    simp [Op.kind] at this
  · have hk : s.t.kinds (.fetch k) ≠ none := by rw [kinds_of_ops hop]; simp
    have hns := (hf.ok k).not_settled hk
    have hxk := (h.fwrite k off cnt data done hop x hc).1
    refine h.fetchChange (k := k) rfl (fun _ => id) (fun _ h1 _ => h1) (fun _ => rfl) (fetch_remote hf k hk) (fun h1 => absurd h1 hns) (h.tinv.exec _ _)
      (fun q id => kinds_exec _ _ _ _) ?_ ?_ ?_ ?_ ?_
    · intro o hne op hop'
      simp only [ops_exec_ne _ _ hne] at hop'
      refine ⟨op, hop', ?_⟩
      cases op <;> simp
    · intro y hy
      have : y ≠ x := by rintro rfl; exact hy hxk
      simp only [he, upd_ne _ _ this]
    · intro y v hy hp; simpa using hp
    · intro off' cnt' data' done' hop' y hy
      rw [exec_write hop hc] at hop'
      simp only [upd_same, Option.some.injEq, Op.write.injEq] at hop'
      obtain ⟨rfl, rfl, rfl, rfl⟩ := hop'
      obtain ⟨h1, h2, h3⟩ := h.fwrite k off cnt data done hop y hy
      refine ⟨h1, h2, fun hd => ?_⟩
      simp only [he]
      by_cases hyx : y = x
      · subst hyx; simp
      · simp only [upd_ne _ _ hyx] at hd ⊢; exact h3 hd
    · intro snap hop'
      rw [exec_write hop hc] at hop'
      simp at hop'

theorem sim_sourceDone {c : Cfg D} {g : Nat → D} (hss : 0 < c.ss) {s s' : Sys D} {a : Disk D} (hf : FetchInv c s) (h : Sim c g s a none)
    {k : Nat} {ok b : Bool} {gb : Nat → D} {ls : List (Lab D)} (hs : sourceDone c s k ok b gb = some (s', ls)) :
    Sim c g s' a none := by
  obtain ⟨hfr, hset, hsi, ht⟩ := sourceDone_frame hf hs
  have hn := nosrc_of_frame hfr.loc hfr.fs
  rcases ht with ht | ⟨bu, ht⟩
  · exact h.frame ht hfr.ch hn (fun k => by rw [hfr.loc]; exact id) hset (fun x _ _ h1 => .inl (by rw [← hfr.loc]; exact h1))
  · have hk0 := (hf.ok k).src hsi
    have hns : ¬ settled s k := by
      rintro (h1 | h1)
      · rw [hk0.1] at h1; simp at h1
      · rw [hk0.2.2.2.2] at h1; simp at h1
    refine h.fetchChange (k := k) hfr.ch hn (fun k' h1 _ => hset k' h1) hfr.loc hk0.1
      (fun h1 => absurd (hset k h1) hns) (by rw [ht]; exact h.tinv.issueWrite _ _ _ _) ?_ ?_ ?_ ?_ ?_ ?_
    · intro q id; rw [ht, kinds_issueWrite]; simp
    · intro o hne op hop
      rw [ht] at hop
      cases op with
      | read => rw [issueWrite_read hne] at hop; exact ⟨_, hop, rfl⟩
      | write => rw [issueWrite_write hne] at hop; exact ⟨_, hop, rfl⟩
      | flush snap =>
        obtain ⟨-, s0, h0, rfl⟩ := issueWrite_flush hop
        refine ⟨_, h0, ?_⟩
        rintro x v hx (h1 | ⟨h1, -⟩)
        · exact h1
        · exact absurd ((dom_div hss).mp h1).1 hx
    · intro x _; rw [ht]; rfl
    · intro x v hx hp
      rw [ht] at hp
      rcases hp with hp | ⟨hp, -⟩
      · exact hp
      · exact absurd ((dom_div hss).mp hp).1 hx
    · intro off cnt data done hop x hx
      rw [ht, ops_issueWrite_same] at hop
      simp only [Option.some.injEq, Op.write.injEq] at hop
      obtain ⟨rfl, rfl, rfl, rfl⟩ := hop
      refine ⟨((dom_div hss).mp hx).1, ?_, by simp⟩
      intro v hv
      show (c.src (k * c.ss + (x - k * c.ss))).getD _ = v
      have : k * c.ss + (x - k * c.ss) = x := by have := hx.1; omega
      rw [this, hv]; rfl
    · intro snap hop
      rw [ht, ops_issueWrite_same] at hop
      simp at hop

theorem sim_targetDone {c : Cfg D} {g : Nat → D} (hss : 0 < c.ss) {s : Sys D} {a : Disk D} (hf : FetchInv c s) (h : Sim c g s a none)
    {k : Nat} {ok b : Bool} (hm : s.t.mayComplete (.fetch k) ok) : Sim c g (targetDone s k ok b).1 a none := by
  obtain ⟨hfr, hcase⟩ := targetDone_frame (b := b) hf hm
  have hn := nosrc_of_frame hfr.loc hfr.fs
  have hl : ∀ k, s.sh.isLocal k = true → (targetDone s k ok b).1.sh.isLocal k = true → True := fun _ _ _ => trivial
  obtain ⟨op, hop, -⟩ := hm
  have hbusy : s.t.kinds (.fetch k) ≠ none := by rw [kinds_of_ops hop]; simp
  have hns := (hf.ok k).not_settled hbusy
  have hrem := fetch_remote hf k hbusy
  have hcops : ∀ o, o ≠ Owner.fetch k → ∀ op, (s.t.complete (.fetch k) ok).ops o = some op → ∃ op0, s.t.ops o = some op0 ∧
      (match op0, op with
        | .flush s0, .flush s1 => ∀ x v, x / c.ss ≠ k → s1 x v → s0 x v
        | op0, op => op0 = op) := by
    intro o hne op hop'
    rw [ops_complete_ne _ _ hne] at hop'
    refine ⟨op, hop', ?_⟩
    cases op <;> simp
  rcases hcase with ⟨data, done, hok, hst, hw, hdone, ht, hset⟩ | ⟨ht, hset⟩ | ⟨snap, hok, hfl, ht, hset⟩
  · refine h.fetchChange (k := k) hfr.ch hn (fun k' h1 _ => hset k' h1) hfr.loc hrem
      (fun h1 => absurd (hset k h1) hns) (by rw [ht]; exact (h.tinv.complete _ _).issueFlush _) ?_ ?_ ?_ ?_ ?_ ?_
    · intro q id; rw [ht, kinds_issueFlush, kinds_complete]; simp
    · intro o hne op hop'
      rw [ht] at hop'
      simp only [Dev.issueFlush, upd_ne _ _ hne] at hop'
      exact hcops o hne op hop'
    · intro x _; rw [ht]; rfl
    · intro x v _ hp; rw [ht] at hp; exact hp.1
    · intro off cnt data done hop'
      rw [ht] at hop'; simp [Dev.issueFlush] at hop'
    · intro snap hop' x hxk hxt
      rw [ht] at hop'
      simp only [Dev.issueFlush, upd_same, Option.some.injEq, Op.flush.injEq] at hop'
      have hcov := (dom_div hss).mpr ⟨hxk, hxt⟩
      obtain ⟨h1, h2, h3⟩ := h.fwrite k _ _ _ _ hw x hcov
      refine ⟨fun v hsrc => by rw [ht]; exact (h3 (hdone x hcov)).trans (h2 v hsrc), ?_⟩
      intro w hw'
      rw [← hop'] at hw'
      rcases hw' with hw' | ⟨o, off, cnt, dt, dn, h4, h5, -⟩
      · rw [hw', ht]; rfl
      · exfalso
        obtain ⟨hne, h4⟩ := ops_complete_some h4
        cases o with
        | guest q' id' =>
          have := ((h.gop q' id' _ h4).2 x h5).2
          rw [hxk, hrem] at this; simp at this
        | fetch k' =>
          have := (h.fwrite k' _ _ _ _ h4 x h5).1
          apply hne
          rw [← this, hxk]
  · refine h.fetchChange (k := k) hfr.ch hn (fun k' h1 _ => hset k' h1) hfr.loc hrem
      (fun h1 => absurd (hset k h1) hns) (by rw [ht]; exact h.tinv.complete _ _) ?_ ?_ ?_ ?_ ?_ ?_
    · intro q id; rw [ht, kinds_complete]; simp
    · rw [ht]; exact hcops
    · intro x _; rw [ht]; rfl
    · intro x v _ hp; rw [ht] at hp; exact hp.1
    · intro off cnt data done hop'
      rw [ht, ops_complete_same] at hop'; simp at hop'
    · intro snap hop'
      rw [ht, ops_complete_same] at hop'; simp at hop'
  · refine h.fetchChange (k := k) hfr.ch hn (fun k' h1 h2 => (hset k' h1).resolve_right h2) hfr.loc hrem
      ?_ (by rw [ht]; exact h.tinv.complete _ _) ?_ ?_ ?_ ?_ ?_ ?_
    · intro _ x hxk hx
      obtain ⟨h1, h2⟩ := h.fflush k snap hfl x hxk hx
      refine ⟨by rw [ht]; exact h1, ?_⟩
      intro v hp
      rw [ht] at hp ⊢
      exact h2 v (hp.2 snap hfl hok)
    · intro q id; rw [ht, kinds_complete]; simp
    · rw [ht]; exact hcops
    · intro x _; rw [ht]; rfl
    · intro x v _ hp; rw [ht] at hp; exact hp.1
    · intro off cnt data done hop'
      rw [ht, ops_complete_same] at hop'; simp at hop'
    · intro snap hop'
      rw [ht, ops_complete_same] at hop'; simp at hop'

end Verif.Lazy
