import Verif.Proof.LazyRun

/-! Counting: metadata buffers, fetched and source stripes, and the disconnect from the source (C13–C15). -/

set_option maxRecDepth 8000

namespace Verif.Lazy
open Verif Verif.Metadata Verif.Disk

variable {D : Type} {c : Cfg D}

/-- How many of the first `n` numbers satisfy `f`. -/
def cnt (n : Nat) (f : Nat → Bool) : Nat := (List.range n).countP f

theorem cnt_succ (n : Nat) (f : Nat → Bool) : cnt (n + 1) f = cnt n f + (f n).toNat := by
  unfold cnt
  rw [List.range_succ, List.countP_append]
  cases h : f n <;> simp [h]

theorem cnt_congr {n : Nat} {f g : Nat → Bool} (h : ∀ k, k < n → f k = g k) : cnt n f = cnt n g := by
  induction n with
  | zero => rfl
  | succ n ih => rw [cnt_succ, cnt_succ, ih (fun k hk => h k (by omega)), h n (by omega)]

theorem cnt_mono {n : Nat} {f g : Nat → Bool} (h : ∀ k, k < n → f k = true → g k = true) : cnt n f ≤ cnt n g := by
  induction n with
  | zero => exact Nat.le_refl _
  | succ n ih =>
    rw [cnt_succ, cnt_succ]
    have h1 := ih (fun k hk => h k (by omega))
    have h2 := h n (by omega)
    cases hf : f n <;> cases hg : g n <;> simp_all <;> omega

theorem cnt_eq_all {n : Nat} {f g : Nat → Bool} (h : ∀ k, k < n → f k = true → g k = true) (he : cnt n g = cnt n f) :
    ∀ k, k < n → g k = true → f k = true := by
  induction n with
  | zero => intro k hk; omega
  | succ n ih =>
    rw [cnt_succ, cnt_succ] at he
    have h1 := cnt_mono (n := n) (f := f) (g := g) (fun k hk => h k (by omega))
    have h2 := h n (by omega)
    have h4 : (f n).toNat ≤ (g n).toNat := by
      cases hf : f n <;> cases hg : g n <;> simp_all
    intro k hk hg
    by_cases hkn : k = n
    · subst hkn
      cases hf : f k with
      | true => rfl
      | false => rw [hf, hg] at he; simp at he; omega
    · exact ih (fun k hk => h k (by omega)) (by omega) k (by omega) hg

theorem cnt_upd {n k : Nat} (f : Nat → Bool) (b : Bool) (hk : k < n) :
    cnt n (upd f k b) + (f k).toNat = cnt n f + b.toNat := by
  induction n with
  | zero => omega
  | succ n ih =>
    rw [cnt_succ, cnt_succ]
    by_cases hkn : k = n
    · subst hkn
      have : cnt k (upd f k b) = cnt k f := cnt_congr fun i hi => upd_ne _ _ (by omega)
      rw [this, upd_same]; omega
    · have := ih (by omega)
      rw [upd_ne _ _ (Ne.symm hkn)]; omega

theorem cnt_list {n : Nat} (f : Nat → Bool) (ks : List Nat) (hn : ks.Nodup) (h : ∀ k ∈ ks, k < n ∧ f k = true) :
    ks.length ≤ cnt n f := by
  induction n generalizing ks with
  | zero =>
    cases ks with
    | nil => simp
    | cons a l => exact absurd (h a (by simp)).1 (by omega)
  | succ n ih =>
    rw [cnt_succ]
    have h1 := ih (ks.erase n) (hn.erase _) (fun x hx => by
      have h2 := h x (List.mem_of_mem_erase hx)
      have h3 : x ≠ n := by rintro rfl; exact (List.Nodup.not_mem_erase hn) hx
      exact ⟨by omega, h2.2⟩)
    by_cases hm : n ∈ ks
    · rw [List.length_erase_of_mem hm] at h1
      rw [(h n hm).2]; simp; omega
    · rw [List.erase_of_not_mem hm] at h1; omega

/-! ### Metadata buffers -/

def isWriting : Option Update → Bool
  | some u => decide (u.stage = .writing)
  | none => false

theorem isWriting_some (u : Update) : isWriting (some u) = decide (u.stage = .writing) := rfl
theorem isWriting_none : isWriting none = false := rfl

def FlInv (c : Cfg D) (s : Sys D) : Prop := s.fl.free + cnt c.n (fun k => isWriting (s.fl.updates k)) = maxChanges

theorem FlInv.congr {s s' : Sys D} (h : FlInv c s) (h1 : s'.fl.free = s.fl.free) (h2 : s'.fl.updates = s.fl.updates) : FlInv c s' := by
  unfold FlInv at *; rw [h1, h2]; exact h

theorem isWriting_upd (f : Nat → Option Update) (k : Nat) (u : Option Update) :
    (fun k' => isWriting (upd f k u k')) = upd (fun k' => isWriting (f k')) k (isWriting u) := by
  funext k'
  by_cases h : k' = k
  · subst h; simp
  · simp [upd_ne _ _ h]

theorem startMeta_flInv {s s' : Sys D} {b : Bool} {mv : Nat → Bytes} (hm : MetaInv c mv s) (h : FlInv c s)
    (hs : startMeta s b = some s') : FlInv c s' := by
  unfold startMeta at hs
  split at hs
  · simp at hs
  · rename_i k mask q hq
    split at hs
    · simp at hs
    · rename_i hfree
      split at hs
      · simp at hs
      · rename_i hbusy
        split at hs
        · simp only [Option.some.injEq] at hs; subst hs; exact h
        · split at hs
          · simp only [Option.some.injEq] at hs; subst hs
            have hkn := (hm.queue k mask (by rw [hq]; simp)).1
            have hnone : s.fl.updates k = none := by
              cases hu : s.fl.updates k with
              | none => rfl
              | some u =>
                exfalso
                have := hm.upd k u hu
                apply hbusy
                rw [← this.sector]; exact this.busy
            unfold FlInv at *
            simp only [isWriting_upd]
            have := cnt_upd (fun k' => isWriting (s.fl.updates k')) true hkn
            simp only [hnone, isWriting_some, isWriting_none, Bool.toNat_false, Bool.toNat_true] at this
            simp only [isWriting_some, isWriting_none, decide_true]
            omega
          · simp only [Option.some.injEq] at hs; subst hs; exact h

theorem metaDone_flInv {s : Sys D} {k : Nat} {ok b : Bool} {mv : Nat → Bytes} (hm : MetaInv c mv s) (h : FlInv c s) :
    FlInv c (metaDone s k ok b) := by
  unfold metaDone
  simp only
  split
  · exact h
  · rename_i u hu
    have hkn := (hm.upd k u hu).kn
    have key : ∀ x, cnt c.n (upd (fun k' => isWriting (s.fl.updates k')) k x) + (isWriting (s.fl.updates k)).toNat =
        cnt c.n (fun k' => isWriting (s.fl.updates k')) + x.toNat := fun x => cnt_upd _ x hkn
    simp only [hu] at key
    unfold FlInv at *
    cases hst : u.stage with
    | writing =>
      have k1 := key false
      simp only [isWriting_some, isWriting_none, hst, decide_true, Bool.toNat_true, Bool.toNat_false] at k1
      split
      · simp only
        split
        · simp only [isWriting_upd]
          simp only [isWriting_some, isWriting_none, reduceCtorEq, decide_false]; omega
        · simp only [Flusher.revert, isWriting_upd]
          simp only [isWriting_some, isWriting_none]; omega
      · simp only [Flusher.revert, isWriting_upd]
        simp only [isWriting_some, isWriting_none, decide_true, if_true]; omega
    | flushing =>
      have k1 := key false
      simp only [isWriting_some, isWriting_none, hst, reduceCtorEq, decide_false, Bool.toNat_false] at k1
      split
      · simp only [isWriting_upd]
        simp only [isWriting_some, isWriting_none]; omega
      · simp only [Flusher.revert, isWriting_upd]
        simp only [isWriting_some, isWriting_none, reduceCtorEq, decide_false, Bool.false_eq_true, if_false]; omega

theorem step_flInv {s s' : Sys D} {a : Act D} {ls : List (Lab D)} (hs : Sound c s) (hi : FlInv c s) (h : Step c s a ls s') :
    FlInv c s' := by
  obtain ⟨gg, ab, hsim⟩ := hs.sim
  obtain ⟨⟨⟨hdrs, mv, hb, hm⟩, hf⟩, -⟩ := hs
  by_cases hg : a.isGuest = true
  · have := (guest_frame h hg).fl
    exact hi.congr (by rw [this]) (by rw [this])
  cases h with
  | receiveFetch k ms hms => exact hi.congr (by rw [handleFetch_frame.fl]) (by rw [handleFetch_frame.fl])
  | autofetch k ks ha hq h => exact hi.congr (by rw [handleFetch_frame.fl]) (by rw [handleFetch_frame.fl])
  | startFetch submitOk _ _ h => exact hi.congr (by rw [(startFetch_frame hf h).1.fl]) (by rw [(startFetch_frame hf h).1.fl])
  | sourceDone k ok submitOk garbage _ _ h =>
    exact hi.congr (by rw [(sourceDone_frame hf h).1.fl]) (by rw [(sourceDone_frame hf h).1.fl])
  | targetDone k ok submitOk h => exact hi.congr (by rw [(targetDone_frame hf h).1.fl]) (by rw [(targetDone_frame hf h).1.fl])
  | startMeta submitOk _ h => exact startMeta_flInv hm hi h
  | metaDone k ok submitOk h => exact metaDone_flInv hm hi
  | takeFinished k ok rest h => cases ok <;> exact hi
  | execData | execMeta | receiveWritten | disconnect => exact hi
  | _ => simp [Act.isGuest] at hg

theorem FlInv.boot {hdrs : Bytes} {tv : Nat → D} {mv : Nat → Bytes} {b0 : Nat → Nat → D} : FlInv c (Sys.boot c hdrs tv mv b0) := by
  have : ∀ n, cnt n (fun _ => false) = 0 := by
    intro n; induction n with
    | zero => rfl
    | succ n ih => rw [cnt_succ, ih]; rfl
  unfold FlInv
  simp only [Sys.boot, isWriting, this]; rfl

theorem Run.flInv {s0 s : Sys D} {ls : List (Lab D)} (h : Run c s0 ls s) (hs : Sound c s0) (h0 : FlInv c s0) : FlInv c s :=
  h.preserve (P := FlInv c) hs (fun _ _ _ _ h1 h2 h3 => step_flInv h1 h2 h3) (fun _ _ _ _ _ _ _ _ _ _ => .boot) h0

/-! ### Fetched and source stripes -/

structure FsInv (c : Cfg D) (s : Sys D) : Prop where
  fs : ∀ k, s.sh.fs k = .fetched → c.hs k = true
  st : ∀ k, s.fe.states k ≠ none → c.hs k = true
  hdr : ∀ k, k < c.n → flag (s.fl.hdrs.getD k 0) FETCHED = true → c.hs k = true
  pers : ∀ x v, s.m.pers x v → ∀ k, k < c.n → stripeIdToSector k = x → flag (v.getD (k % 508) 0) FETCHED = true → c.hs k = true
  fetched : s.sh.fetched = cnt c.n fun k => s.sh.fs k = .fetched
  source : s.sh.source = cnt c.n c.hs
  disc : s.fe.disconnected = true → ∀ k, k < c.n → c.hs k = true → s.sh.fs k = .fetched

theorem FsInv.frame {s s' : Sys D} (h : FsInv c s) (hst : ∀ k, s'.fe.states k ≠ none → s.fe.states k ≠ none ∨ c.hs k = true)
    (hfl : s'.fl.hdrs = s.fl.hdrs) (hm : ∀ x v, s'.m.pers x v → s.m.pers x v)
    (hfs : ∀ k, s'.sh.fs k = .fetched ↔ s.sh.fs k = .fetched) (h1 : s'.sh.fetched = s.sh.fetched)
    (h2 : s'.sh.source = s.sh.source) (hd : s'.fe.disconnected = s.fe.disconnected) : FsInv c s' := by
  refine ⟨fun k hk => h.fs k ((hfs k).1 hk), fun k hk => (hst k hk).elim (h.st k) (fun h => h), by rw [hfl]; exact h.hdr, fun x v hp => h.pers x v (hm x v hp), ?_,
    by rw [h2]; exact h.source, fun hd' k hk hh => (hfs k).2 (h.disc (by rw [← hd]; exact hd') k hk hh)⟩
  rw [h1, h.fetched]
  exact cnt_congr fun k _ => by simp only [hfs]

theorem handleFetch_fsInv {s : Sys D} {k : Nat} {a : Disk D} (hsim : ∀ k, c.hs k = false → s.sh.isLocal k = true) (h : FsInv c s) :
    FsInv c (handleFetch s k).1 := by
  unfold handleFetch
  split
  · exact h
  · rename_i hl
    split
    · exact h
    · refine h.frame (fun k' hk' => ?_) rfl (fun _ _ h => h) (fun _ => Iff.rfl) rfl rfl rfl
      by_cases he : k' = k
      · subst he
        right
        cases hh : c.hs k' with
        | true => rfl
        | false => exact absurd (hsim k' hh) hl
      · left; simpa only [upd_ne _ _ he] using hk'

theorem fetchCompleted_fsInv {s : Sys D} {k : Nat} {ok : Bool} (hs : s.fe.states k ≠ none) (hl : s.sh.isLocal k = false)
    (h : FsInv c s) : FsInv c (fetchCompleted s k ok).1 := by
  have hst : ∀ (x : Option FetchState) k', upd s.fe.states k x k' ≠ none → s.fe.states k' ≠ none ∨ c.hs k' = true := by
    intro x k' hk'
    left
    by_cases he : k' = k
    · subst he; exact hs
    · rwa [upd_ne _ _ he] at hk'
  unfold fetchCompleted
  simp only
  split
  · exact h.frame (by simpa using hst _) rfl (fun _ _ h => h) (fun _ => Iff.rfl) rfl rfl (by simp)
  · split
    · exact h.frame (by simpa using hst _) rfl (fun _ _ h => h) (fun _ => Iff.rfl) rfl rfl (by simp)
    · exact h.frame (by simpa using hst _) rfl (fun _ _ h => h) (fun k' => fs_setFailed _ _ _ hl) rfl rfl (by simp)

theorem startMeta_fsInv {s s' : Sys D} {b : Bool} {mv : Nat → Bytes} (hm : MetaInv c mv s) (h : FsInv c s)
    (hs : startMeta s b = some s') : FsInv c s' := by
  unfold startMeta at hs
  split at hs
  · simp at hs
  · rename_i k mask q hq
    have hkn := hm.queue k mask (by rw [hq]; simp)
    have hlen : k < s.fl.hdrs.length := by rw [hm.len]; exact hkn.1
    split at hs
    · simp at hs
    · split at hs
      · simp at hs
      · split at hs
        · simp only [Option.some.injEq] at hs; subst hs
          exact h.frame (fun _ hk => Or.inl hk) rfl (fun _ _ h => h) (fun _ => Iff.rfl) rfl rfl rfl
        · rename_i hmask
          have hset : ∀ x, (flag x FETCHED = true → flag (s.fl.hdrs.getD k 0) FETCHED = true ∨ mask = FETCHED) →
              ∀ k', k' < c.n → flag ((s.fl.hdrs.set k x).getD k' 0) FETCHED = true → c.hs k' = true := by
            intro x hx k' hk' hf
            rw [getD_set _ _ _ _ hlen] at hf
            split at hf
            · rename_i he
              subst he
              rcases hx hf with h1 | h1
              · exact h.hdr k' hk' h1
              · rcases hkn.2 with ⟨-, h2⟩ | h2
                · exact h.st k' (by rw [h2]; simp)
                · rw [h1] at h2; exact absurd h2 (by decide)
            · exact h.hdr k' hk' hf
          split at hs
          · simp only [Option.some.injEq] at hs; subst hs
            have hall := hset (s.fl.hdrs.getD k 0 ||| mask) (by
              intro hf
              rw [flag_or] at hf
              rcases hkn.2 with ⟨h1, -⟩ | h1
              · exact Or.inr h1
              · rw [h1, flag_WF] at hf; left; simpa using hf)
            refine ⟨h.fs, h.st, hall, ?_, h.fetched, h.source, h.disc⟩
            intro x v hp k' hk' hx hf
            rcases hp with hp | ⟨hc1, rfl⟩
            · exact h.pers x v hp k' hk' hx hf
            · have hxk : x = stripeIdToSector k := by unfold covers at hc1; omega
              have hgr : stripeIdToGroup k = k' / 508 := by
                rw [hxk] at hx; unfold stripeIdToSector at hx; unfold stripeIdToGroup; omega
              rw [hgr, writeSector_byte _ _ (by simp only [List.length_set, hm.len]; exact hk')] at hf
              exact hall k' hk' hf
          · simp only [Option.some.injEq] at hs; subst hs
            refine ⟨h.fs, h.st, hset _ ?_, h.pers, h.fetched, h.source, h.disc⟩
            intro hf
            left
            rcases hkn.2 with ⟨h1, -⟩ | h1
            · rw [h1, flag_clear_F_F] at hf; simp at hf
            · rw [h1, flag_clear_W_F, flag_or, flag_WF] at hf; simpa using hf

theorem revert_hdrs {s : Sys D} {k : Nat} {u : Update} {b : Bool} {mv : Nat → Bytes} (hm : MetaInv c mv s) (h : FsInv c s)
    (hu : s.fl.updates k = some u) :
    ∀ k', k' < c.n → flag ((s.fl.revert k u b).hdrs.getD k' 0) FETCHED = true → c.hs k' = true := by
  intro k' hk' hf
  have huk := hm.upd k u hu
  simp only [Flusher.revert] at hf
  rw [getD_set _ _ _ _ (by rw [hm.len]; exact huk.kn)] at hf
  split at hf
  · rename_i he
    subst he
    rcases huk.mask with ⟨h1, -⟩ | ⟨h1, -⟩
    · rw [h1, flag_clear_F_F] at hf; simp at hf
    · rw [h1, flag_clear_W_F] at hf; exact h.hdr k' hk' hf
  · exact h.hdr k' hk' hf

theorem setHeader_fetched {sh : Shared} {k : Nat} {h : UInt8} (hk : k < c.n) (hfs : flag h FETCHED = true → sh.fs k ≠ .noSource)
    (hc : sh.fetched = cnt c.n fun k => sh.fs k = .fetched) :
    (sh.setHeader k h).fetched = cnt c.n fun k' => (sh.setHeader k h).fs k' = .fetched := by
  unfold Shared.setHeader
  simp only
  by_cases hf : flag h FETCHED = true
  · simp only [hf, if_true, Bool.true_and]
    have he : (fun k' => decide (upd sh.fs k .fetched k' = .fetched)) = upd (fun k' => decide (sh.fs k' = .fetched)) k true := by
      funext k'
      by_cases hk' : k' = k
      · subst hk'; simp
      · simp [upd_ne _ _ hk']
    rw [he]
    have := cnt_upd (fun k' => decide (sh.fs k' = .fetched)) true hk
    have hl : sh.isLocal k = decide (sh.fs k = .fetched) := by
      have := hfs hf
      simp [Shared.isLocal, this]
    rw [hl]
    cases hd : decide (sh.fs k = .fetched) with
    | true => simp [hd] at this ⊢; omega
    | false => simp [hd] at this ⊢; omega
  · simp only [hf, if_false, Bool.false_eq_true, Bool.false_and]
    exact hc

theorem metaDone_fsInv {s : Sys D} {k : Nat} {ok b : Bool} {mv : Nat → Bytes} (hm : MetaInv c mv s)
    (hsim : ∀ k, s.sh.fs k = .noSource → c.hs k = false) (h : FsInv c s) :
    FsInv c (metaDone s k ok b) := by
  unfold metaDone
  simp only
  split
  · exact h.frame (fun _ hk => Or.inl hk) rfl (fun x v hp => hp.1) (fun _ => Iff.rfl) rfl rfl rfl
  · rename_i u hu
    have huk := hm.upd k u hu
    have hrev : ∀ fl', fl'.hdrs = (s.fl.revert k u false).hdrs → FsInv c { s with m := s.m.complete k ok, fl := fl' } := by
      intro fl' he
      exact ⟨h.fs, h.st, by simp only [he]; exact revert_hdrs hm h hu, fun x v hp => h.pers x v hp.1, h.fetched, h.source, h.disc⟩
    split
    · split
      · split
        · exact h.frame (fun _ hk => Or.inl hk) rfl (fun x v hp => hp.1) (fun _ => Iff.rfl) rfl rfl rfl
        · exact hrev _ rfl
      · have hhs : flag u.header FETCHED = true → c.hs k = true := by
          intro hf
          rw [huk.header] at hf
          exact h.hdr k huk.kn hf
        refine ⟨?_, h.st, h.hdr, fun x v hp => h.pers x v hp.1, ?_, h.source, ?_⟩
        · intro k' hk'
          simp only [Shared.setHeader] at hk'
          split at hk'
          · rename_i hf
            by_cases he : k' = k
            · subst he; exact hhs hf
            · rw [upd_ne _ _ he] at hk'; exact h.fs k' hk'
          · exact h.fs k' hk'
        · refine setHeader_fetched huk.kn (fun hf hn => ?_) h.fetched
          have := hsim k hn
          rw [hhs hf] at this; simp at this
        · intro hd k' hk' hh
          have := h.disc hd k' hk' hh
          simp only [Shared.setHeader]
          split
          · by_cases he : k' = k
            · subst he; simp
            · rw [upd_ne _ _ he]; exact this
          · exact this
    · exact hrev _ rfl

theorem step_fsInv {s s' : Sys D} {a : Act D} {ls : List (Lab D)} (hs : Sound c s) (hi : FsInv c s) (h : Step c s a ls s') :
    FsInv c s' := by
  obtain ⟨gg, ab, hsim⟩ := hs.sim
  obtain ⟨⟨⟨hdrs, mv, hb, hm⟩, hf⟩, -⟩ := hs
  by_cases hg : a.isGuest = true
  · have hgf := guest_frame h hg
    exact hi.frame (fun k hk => Or.inl (by rw [← hgf.fe]; exact hk)) (by rw [hgf.fl]) (fun x v hp => by rwa [hgf.m] at hp)
      (fun k => by rw [hgf.sh]) (by rw [hgf.sh]) (by rw [hgf.sh]) (by rw [hgf.fe])
  have triv : ∀ s'' : Sys D, s''.fe.states = s.fe.states → s''.fe.disconnected = s.fe.disconnected → s''.fl.hdrs = s.fl.hdrs →
      s''.m.pers = s.m.pers → s''.sh = s.sh → FsInv c s'' := by
    intro s'' h1 h2 h3 h4 h5
    exact hi.frame (fun k hk => Or.inl (by rw [← h1]; exact hk)) h3 (fun x v hp => by rwa [h4] at hp)
      (fun k => by rw [h5]) (by rw [h5]) (by rw [h5]) h2
  cases h with
  | receiveFetch k ms hms => exact handleFetch_fsInv (a := ab) (fun k => (hsim.nosrc k).2) (triv _ rfl rfl rfl rfl rfl)
  | autofetch k ks ha hq h => exact handleFetch_fsInv (a := ab) (fun k => (hsim.nosrc k).2) (triv _ rfl rfl rfl rfl rfl)
  | startFetch submitOk _ _ h =>
    unfold startFetch at h
    split at h
    · rename_i k q b free hq hfr
      have hk0 := (hf.ok k).queued (by rw [hq]; simp)
      simp only at h
      split at h
      · simp only [Option.some.injEq, Prod.mk.injEq] at h
        obtain ⟨rfl, -⟩ := h
        refine hi.frame (fun k' hk' => ?_) rfl (fun _ _ h => h) (fun _ => Iff.rfl) rfl rfl rfl
        left
        by_cases he : k' = k
        · subst he; rw [hk0.2.2.2.2]; simp
        · simpa only [upd_ne _ _ he] using hk'
      · simp only [Option.some.injEq, Prod.mk.injEq] at h
        obtain ⟨rfl, -⟩ := h
        exact fetchCompleted_fsInv (by simp only; rw [hk0.2.2.2.2]; simp) hk0.1 (triv _ rfl rfl rfl rfl rfl)
    · simp at h
  | sourceDone k ok submitOk garbage _ _ h =>
    unfold sourceDone at h
    split at h
    · rename_i hsi
      have hk0 := (hf.ok k).src hsi
      simp only at h
      split at h
      · rename_i hal; exact absurd hal hk0.2.1
      · rename_i bu hal
        split at h
        · split at h
          · simp only [Option.some.injEq, Prod.mk.injEq] at h
            obtain ⟨rfl, -⟩ := h
            exact triv _ rfl rfl rfl rfl rfl
          · simp only [Option.some.injEq] at h
            obtain ⟨h1, -⟩ := Prod.ext_iff.mp h
            simp only at h1
            rw [← h1]
            exact fetchCompleted_fsInv (by simp only; rw [hk0.2.2.2.2]; simp) hk0.1 (triv _ rfl rfl rfl rfl rfl)
        · simp only [Option.some.injEq] at h
          obtain ⟨h1, -⟩ := Prod.ext_iff.mp h
          simp only at h1
          rw [← h1]
          exact fetchCompleted_fsInv (by simp only; rw [hk0.2.2.2.2]; simp) hk0.1 (triv _ rfl rfl rfl rfl rfl)
    · simp at h
  | targetDone k ok submitOk h =>
    obtain ⟨op, hop, -⟩ := h
    have hk0 := (hf.ok k).busy (by rw [kinds_of_ops hop]; simp)
    have hst : s.fe.states k ≠ none := by
      rcases hk0.2.2.2.2 with ⟨h1, -⟩ | ⟨h1, -⟩ <;> rw [h1] <;> simp
    unfold targetDone
    simp only
    split
    · split
      · split
        · refine hi.frame (fun k' hk' => ?_) rfl (fun _ _ h => h) (fun _ => Iff.rfl) rfl rfl rfl
          left
          by_cases he : k' = k
          · subst he; exact hst
          · simpa only [upd_ne _ _ he] using hk'
        · exact fetchCompleted_fsInv hst hk0.1 (triv _ rfl rfl rfl rfl rfl)
      · exact fetchCompleted_fsInv hst hk0.1 (triv _ rfl rfl rfl rfl rfl)
      · exact triv _ rfl rfl rfl rfl rfl
    · exact fetchCompleted_fsInv hst hk0.1 (triv _ rfl rfl rfl rfl rfl)
  | startMeta submitOk _ h => exact startMeta_fsInv hm hi h
  | metaDone k ok submitOk h => exact metaDone_fsInv hm (fun k => (hsim.nosrc k).1) hi
  | takeFinished k ok rest h => cases ok <;> exact triv _ rfl rfl rfl rfl rfl
  | execMeta k x =>
    refine triv _ rfl rfl rfl ?_ rfl
    simp only [Dev.exec]
    split
    · split <;> rfl
    · split <;> rfl
    · rfl
  | execData | receiveWritten => exact triv _ rfl rfl rfl rfl rfl
  | disconnect hd hb hc =>
    refine ⟨hi.fs, hi.st, hi.hdr, hi.pers, hi.fetched, hi.source, fun _ k hk hh => ?_⟩
    have h1 := hi.fetched
    rw [← hc, hi.source] at h1
    have := cnt_eq_all (f := fun k => decide (s.sh.fs k = .fetched)) (g := c.hs)
      (fun k _ hf => hi.fs k (by simpa using hf)) h1 k hk hh
    simpa using this
  | _ => simp [Act.isGuest] at hg

theorem countP_getD (l : Bytes) (p : UInt8 → Bool) : l.countP p = cnt l.length fun k => p (l.getD k 0) := by
  have : ∀ n, n ≤ l.length → (l.take n).countP p = cnt n fun k => p (l.getD k 0) := by
    intro n
    induction n with
    | zero => intro _; rfl
    | succ n ih =>
      intro hn
      rw [cnt_succ, ← ih (by omega), List.take_succ_eq_append_getElem (by omega), List.countP_append]
      congr 1
      have : l.getD n 0 = l[n] := by simp [List.getD_eq_getElem?_getD, List.getElem?_eq_getElem (show n < l.length by omega)]
      rw [this]
      cases h : p l[n] <;> simp [h]
  have h := this l.length (Nat.le_refl _)
  rwa [List.take_length] at h

theorem FsInv.boot {hdrs : Bytes} {tv : Nat → D} {mv : Nat → Bytes} {b0 : Nat → Nat → D} (hb : Bootable c hdrs mv)
    (hfs : ∀ k, k < c.n → flag (hdrs.getD k 0) FETCHED = true → c.hs k = true) : FsInv c (Sys.boot c hdrs tv mv b0) := by
  have hout : ∀ k, ¬ k < c.n → hdrs.getD k 0 = 0 := by
    intro k hk
    rw [List.getD_eq_getElem?_getD, List.getElem?_eq_none (by have := hb.len; omega)]; rfl
  have hload : ∀ k, (loadFs (hdrs.getD k 0) = .fetched) ↔ (c.hs k = true ∧ flag (hdrs.getD k 0) FETCHED = true) := by
    intro k
    rw [hb.hs]
    unfold loadFs
    split
    · split <;> simp_all
    · simp_all
  have hm : MetaInv c mv (Sys.boot c hdrs tv mv b0) := boot_meta hb
  refine ⟨fun k hk => ((hload k).1 hk).1, fun k hk => by simp [Sys.boot] at hk, hfs, ?_, ?_, ?_, fun h => by simp [Sys.boot] at h⟩
  · intro x v hp k hk hx hf
    have hp' : v = mv x := hp
    subst hp'
    have h0 : (mv x).getD (k % 508) 0 = hdrs.getD k 0 := by
      subst hx
      obtain ⟨md, h1, h2⟩ := hb.load
      rw [← h2]
      exact ((load_sectors hb.sectors h1 k (by rw [h2, hb.len]; exact hk)).2).symm
    rw [h0] at hf
    exact hfs k hk hf
  · show hdrs.countP (flag · FETCHED) = cnt c.n fun k => decide (loadFs (hdrs.getD k 0) = .fetched)
    rw [countP_getD, hb.len]
    apply cnt_congr
    intro k hk
    have h1 := hload k
    have h2 := hfs k hk
    by_cases hf : flag (hdrs.getD k 0) FETCHED = true
    · simp only [hf]; symm; simpa using h1.2 ⟨h2 hf, hf⟩
    · have : ¬ loadFs (hdrs.getD k 0) = .fetched := fun h => hf (h1.1 h).2
      rw [decide_eq_false this]; simpa using hf
  · show hdrs.countP (flag · HAS_SOURCE) = cnt c.n c.hs
    rw [countP_getD, hb.len]
    exact cnt_congr fun k _ => (hb.hs k).symm

theorem crash_fsInv {s : Sys D} (hs : Sound c s) (hi : FsInv c s) {tv : Nat → D} {mv' : Nat → Bytes} {md : Meta} {b0 : Nat → Nat → D}
    (h2 : s.m.survives mv') (h3 : fromBytes (devBytes c.msec mv') = .ok md) : FsInv c (Sys.boot c md.headers tv mv' b0) := by
  obtain ⟨g1, -⟩ := crash_hdrOk hs h2 h3
  refine .boot g1 fun k hk hf => ?_
  rw [(load_sectors g1.sectors h3 k (by rw [g1.len]; exact hk)).2] at hf
  exact hi.pers _ _ (h2 _) k hk rfl hf

theorem Run.fsInv {s0 s : Sys D} {ls : List (Lab D)} (h : Run c s0 ls s) (hs : Sound c s0) (h0 : FsInv c s0) : FsInv c s :=
  h.preserve (P := FsInv c) hs (fun _ _ _ _ h1 h2 h3 => step_fsInv h1 h2 h3)
    (fun _ _ _ _ _ h1 h2 _ h4 h5 => crash_fsInv h1 h2 h4 h5) h0

theorem Run.fetched {s0 s : Sys D} {ls : List (Lab D)} (h : Run c s0 ls s) (hs : Sound c s0) (h0 : FsInv c s0) {k : Nat}
    (hk : k < c.n) (hf : s0.sh.fs k = .fetched) : s.sh.fs k = .fetched :=
  (h.preserve (P := fun s => FsInv c s ∧ s.sh.fs k = .fetched) hs
    (fun _ _ _ _ h1 h2 h3 => ⟨step_fsInv h1 h2.1 h3, (step_mono h1 h3).fs k h2.2⟩)
    (fun s tv mv md b0 h1 h2 _ h4 h5 => ⟨crash_fsInv h1 h2.1 h4 h5, by
      have hok := (crash_hdrOk h1 h4 h5).2 k hk
      show loadFs (md.headers.getD k 0) = .fetched
      unfold loadFs
      rw [hok.fetched h2.2, hok.src, h2.1.fs k h2.2]; rfl⟩) ⟨h0, hf⟩).2

end Verif.Lazy
