import Verif.Model.LazyKill
import Verif.Proof.LazyRefine

/-! Restart of a killed backend: simulation by the plain disk while no power loss can take back metadata that the
restarted backend trusted. -/

set_option maxRecDepth 8000

namespace Verif.Lazy
open Verif Verif.Metadata Verif.Disk

variable {D : Type}

/-- The same state with another set of contents that may survive on the metadata device. -/
def Sys.wp (s : Sys D) (p : Nat → Bytes → Prop) : Sys D := { s with m := { s.m with pers := p } }

theorem wp_toBase (s : Sys D) (p) (q : Nat) (r : QReq D) : toBase (s.wp p) q r = (toBase s q r).wp p := by
  unfold toBase; cases r.out <;> rfl

theorem wp_enqueue (c : Cfg D) (s : Sys D) (p) (q : Nat) (r : QReq D) (b : Bool) :
    enqueueReq c (s.wp p) q r b = ((enqueueReq c s q r b).1.wp p, (enqueueReq c s q r b).2) := by
  unfold enqueueReq; cases b <;> rfl

theorem wp_addRead (c : Cfg D) (s : Sys D) (p) (q id off cnt : Nat) (b : Bool) :
    addRead c (s.wp p) q id off cnt b = ((addRead c s q id off cnt b).1.wp p, (addRead c s q id off cnt b).2) := by
  unfold addRead
  simp only [wp_toBase, wp_enqueue]
  have e : (s.wp p).sh = s.sh := rfl
  rw [e]
  split
  · rfl
  · rfl
  · split <;> rfl

theorem wp_addWrite (c : Cfg D) (s : Sys D) (p) (q id off cnt : Nat) (data : Nat → D) (b : Bool) :
    addWrite c (s.wp p) q id off cnt data b = ((addWrite c s q id off cnt data b).1.wp p, (addWrite c s q id off cnt data b).2) := by
  unfold addWrite
  simp only [wp_toBase, wp_enqueue]
  have e : (s.wp p).sh = s.sh := rfl
  rw [e]
  split
  · rfl
  · split <;> rfl
  · rfl

theorem wp_processQueue {c : Cfg D} {s s' : Sys D} {q : Nat} {b : Bool} {ls : List (Lab D)} (p)
    (h : processQueue c s q b = some (s', ls)) : processQueue c (s.wp p) q b = some (s'.wp p, ls) := by
  unfold processQueue at h ⊢
  have e : (s.wp p).sh = s.sh := rfl
  have e2 : (s.wp p).ch = s.ch := rfl
  rw [e, e2]
  cases hq : (s.ch q).queue with
  | nil => simp [hq] at h
  | cons r rest =>
    simp only [hq] at h ⊢
    cases hf : fetchStatus s.sh (stripes c r) with
    | pending => simp [hf] at h
    | failed =>
      simp only [hf, Option.some.injEq, Prod.mk.injEq] at h ⊢
      obtain ⟨rfl, rfl⟩ := h
      exact ⟨rfl, rfl⟩
    | complete =>
      simp only [hf] at h ⊢
      split at h
      · cases h
      · rename_i hn
        rw [if_neg hn]
        cases b with
        | true =>
          simp only [if_true, Option.some.injEq, Prod.mk.injEq] at h ⊢
          obtain ⟨rfl, rfl⟩ := h
          refine ⟨?_, rfl⟩
          exact wp_toBase (s.setCh q fun ch =>
            { ch with queue := rest, requested := fun k => ch.requested k && !(stripes c r).contains k }) p q r
        | false =>
          simp only [Bool.false_eq_true, if_false, Option.some.injEq, Prod.mk.injEq] at h ⊢
          obtain ⟨rfl, rfl⟩ := h
          exact ⟨rfl, rfl⟩

theorem wp_handleFetch (s : Sys D) (p) (k : Nat) :
    handleFetch (s.wp p) k = ((handleFetch s k).1.wp p, (handleFetch s k).2) := by
  unfold handleFetch
  have e : (s.wp p).sh = s.sh := rfl
  have e2 : (s.wp p).fe = s.fe := rfl
  rw [e, e2]
  split
  · rfl
  · split <;> rfl

theorem wp_fetchCompleted (s : Sys D) (p) (k : Nat) (ok : Bool) :
    fetchCompleted (s.wp p) k ok = ((fetchCompleted s k ok).1.wp p, (fetchCompleted s k ok).2) := by
  unfold fetchCompleted
  have e2 : (s.wp p).fe = s.fe := rfl
  simp only [e2]
  split
  · rfl
  · split <;> rfl

theorem wp_startFetch {c : Cfg D} {s s' : Sys D} {b : Bool} {ls : List (Lab D)} (p)
    (h : startFetch c s b = some (s', ls)) : startFetch c (s.wp p) b = some (s'.wp p, ls) := by
  unfold startFetch at h ⊢
  have e2 : (s.wp p).fe = s.fe := rfl
  simp only [e2]
  split at h
  · rename_i k q b' free h1 h2
    split at h
    · rename_i h3
      rw [if_pos h3]
      simp only [Option.some.injEq, Prod.mk.injEq] at h ⊢
      obtain ⟨rfl, rfl⟩ := h
      exact ⟨rfl, rfl⟩
    · rename_i h3
      rw [if_neg h3]
      simp only [Option.some.injEq, Prod.mk.injEq] at h
      obtain ⟨rfl, rfl⟩ := h
      have := wp_fetchCompleted { s with fe := { s.fe with queue := q, free := free, alloc := upd s.fe.alloc k (some b') } } p k false
      exact congrArg (fun r => some (r.1, Lab.sourceRead k :: r.2)) this
  · cases h

theorem wp_sourceDone {c : Cfg D} {s s' : Sys D} {k : Nat} {ok b : Bool} {g : Nat → D} {ls : List (Lab D)} (p)
    (h : sourceDone c s k ok b g = some (s', ls)) : sourceDone c (s.wp p) k ok b g = some (s'.wp p, ls) := by
  unfold sourceDone at h ⊢
  have e2 : (s.wp p).fe = s.fe := rfl
  simp only [e2]
  cases h1 : s.fe.srcIn k with
  | false => simp [h1] at h
  | true =>
    simp only [h1, if_true] at h ⊢
    cases h2 : s.fe.alloc k with
    | none =>
      simp only [h2, Option.some.injEq, Prod.mk.injEq] at h ⊢
      obtain ⟨rfl, rfl⟩ := h
      exact ⟨rfl, rfl⟩
    | some b' =>
      simp only [h2] at h ⊢
      cases ok with
      | true =>
        cases b with
        | true =>
          simp only [if_true, Option.some.injEq, Prod.mk.injEq] at h ⊢
          obtain ⟨rfl, rfl⟩ := h
          exact ⟨rfl, rfl⟩
        | false =>
          simp only [if_true, Bool.false_eq_true, if_false, Option.some.injEq] at h ⊢
          have := wp_fetchCompleted { s with fe := { s.fe with srcIn := upd s.fe.srcIn k false, bufs := upd s.fe.bufs b' (sentBuf c k (fillBuf c k (s.fe.bufs b'))) } } p k false
          rw [h] at this
          exact this
      | false =>
        simp only [Bool.false_eq_true, if_false, Option.some.injEq] at h ⊢
        have := wp_fetchCompleted { s with fe := { s.fe with srcIn := upd s.fe.srcIn k false, bufs := upd s.fe.bufs b' g } } p k false
        rw [h] at this
        exact this

theorem wp_targetDone (s : Sys D) (p) (k : Nat) (ok b : Bool) :
    targetDone (s.wp p) k ok b = ((targetDone s k ok b).1.wp p, (targetDone s k ok b).2) := by
  unfold targetDone
  have e2 : (s.wp p).fe = s.fe := rfl
  have e3 : (s.wp p).t = s.t := rfl
  simp only [e2, e3]
  have hf := fun ok => wp_fetchCompleted { s with t := s.t.complete (.fetch k) ok } p k
  split
  · split
    · split
      · rfl
      · exact hf _ _
    · exact hf _ _
    · rfl
  · exact hf _ _

/-- How the possible contents follow a step. `p` is any set of contents for the state before; `F` says that the step
completes a flush. -/
structure Follow (F : Prop) (s s' : Sys D) (p p' : Nat → Bytes → Prop) : Prop where
  /-- what really may survive stays inside -/
  sub : (∀ x v, s.m.pers x v → p x v) → ∀ x v, s'.m.pers x v → p' x v
  /-- snapshots of flushes in flight stay inside, or a flush completes and what may survive is inside -/
  snap : (∀ x, p x (s.m.vol x)) → (∀ x v, s.m.inflight x v → p x v) →
    (∀ k sn, s.m.ops k = some (.flush sn) → ∀ x v, sn x v → p x v) →
    (∀ k sn, s'.m.ops k = some (.flush sn) → ∀ x v, sn x v → p' x v) ∨ (∀ x v, s'.m.pers x v → p' x v)
  /-- after a flush what may survive is inside -/
  flush : F → (∀ k sn, s.m.ops k = some (.flush sn) → ∀ x v, sn x v → p x v) → ∀ x v, s'.m.pers x v → p' x v

theorem Follow.same {s s' : Sys D} {p : Nat → Bytes → Prop} (h : s'.m = s.m) : Follow False s s' p p :=
  ⟨fun h1 => by rw [h]; exact h1, fun _ _ h1 => by rw [h]; exact .inl h1, False.elim⟩

/-- Effect of `issueWrite` on the set of contents. -/
def addP (p : Nat → Bytes → Prop) (off cnt : Nat) (data : Nat → Bytes) : Nat → Bytes → Prop :=
  fun x v => p x v ∨ (covers off cnt x ∧ v = data x)

theorem issueWrite_follow {s s' : Sys D} {p : Nat → Bytes → Prop} {k off cnt : Nat} {data : Nat → Bytes}
    (h : s'.m = s.m.issueWrite k off cnt data) : Follow False s s' p (addP p off cnt data) := by
  refine ⟨?_, ?_, False.elim⟩
  · intro h1 x v h2
    rw [h] at h2
    exact h2.imp (h1 x v) id
  · intro _ _ h1
    left
    intro k' sn h2 x v h3
    rw [h] at h2
    simp only [Dev.issueWrite] at h2
    by_cases hk : k' = k
    · subst hk; rw [upd_same] at h2; simp at h2
    · rw [upd_ne _ _ hk] at h2
      cases ho : s.m.ops k' with
      | none => rw [ho] at h2; simp at h2
      | some op =>
        rw [ho] at h2
        cases op with
        | read => simp [Op.addSnap] at h2
        | write => simp [Op.addSnap] at h2
        | flush sn0 =>
          simp only [Option.map_some, Op.addSnap, Option.some.injEq, Op.flush.injEq] at h2
          subst h2
          exact h3.imp (h1 k' sn0 ho x v) id

/-- Effect of `complete` on the set of contents. -/
def cutP (d : Dev Nat Bytes) (k : Nat) (ok : Bool) (p : Nat → Bytes → Prop) : Nat → Bytes → Prop :=
  fun x v => p x v ∧ (∀ snap, d.ops k = some (.flush snap) → ok = true → snap x v)

theorem complete_follow {s s' : Sys D} {p : Nat → Bytes → Prop} {k : Nat} {ok : Bool} (hm : s'.m = s.m.complete k ok) :
    Follow (ok = true ∧ ∃ sn, s.m.ops k = some (.flush sn)) s s' p (cutP s.m k ok p) := by
  refine ⟨?_, ?_, ?_⟩
  · intro h1 x v h2
    rw [hm] at h2
    exact ⟨h1 x v h2.1, h2.2⟩
  rotate_left
  · rintro ⟨hok, sn, hsn⟩ h1 x v h2
    rw [hm] at h2
    exact ⟨h1 k sn hsn x v (h2.2 sn hsn hok), h2.2⟩
  · intro _ _ h1
    by_cases hfl : ok = true ∧ ∃ sn, s.m.ops k = some (.flush sn)
    · obtain ⟨hok, sn, hsn⟩ := hfl
      right
      intro x v h2
      rw [hm] at h2
      exact ⟨h1 k sn hsn x v (h2.2 sn hsn hok), h2.2⟩
    · left
      intro k' sn h2 x v h3
      rw [hm] at h2
      simp only [Dev.complete] at h2
      by_cases hk : k' = k
      · subst hk; rw [upd_same] at h2; simp at h2
      · rw [upd_ne _ _ hk] at h2
        exact ⟨h1 k' sn h2 x v h3, fun sn' h4 h5 => absurd ⟨h5, sn', h4⟩ hfl⟩

theorem completeFlush_follow {s s' : Sys D} {p : Nat → Bytes → Prop} {k : Nat} {ok : Bool}
    (hno : ∀ sn, s.m.ops k ≠ some (.flush sn)) (hm : s'.m = (s.m.complete k ok).issueFlush k) :
    Follow (ok = true ∧ ∃ sn, s.m.ops k = some (.flush sn)) s s' p (cutP s.m k ok p) := by
  refine ⟨?_, ?_, fun h => absurd h.2.choose_spec (hno _)⟩
  · intro h1 x v h2
    rw [hm] at h2
    exact ⟨h1 x v h2.1, h2.2⟩
  · intro hv hf h1
    left
    intro k' sn h2 x v h3
    refine ⟨?_, fun sn' h4 => absurd h4 (hno sn')⟩
    rw [hm] at h2
    simp only [Dev.issueFlush] at h2
    by_cases hk : k' = k
    · subst hk
      rw [upd_same] at h2
      simp only [Option.some.injEq, Op.flush.injEq] at h2
      subst h2
      rcases h3 with h3 | ⟨o, off, cnt, data, done, h4, h5, h6⟩
      · rw [h3]; exact hv x
      · simp only [Dev.complete] at h4
        by_cases ho : o = k'
        · subst ho; rw [upd_same] at h4; simp at h4
        · rw [upd_ne _ _ ho] at h4
          exact hf x v ⟨o, off, cnt, data, done, h4, h5, h6⟩
    · rw [upd_ne _ _ hk] at h2
      simp only [Dev.complete] at h2
      rw [upd_ne _ _ hk] at h2
      exact h1 k' sn h2 x v h3

theorem exec_follow {s s' : Sys D} {p : Nat → Bytes → Prop} {k x : Nat} (h : s'.m = s.m.exec k x) : Follow False s s' p p := by
  refine ⟨?_, ?_, False.elim⟩
  · intro h1 y v h2
    rw [h, pers_exec] at h2
    exact h1 y v h2
  · intro _ _ h1
    left
    intro k' sn h2 y v h3
    rw [h] at h2
    refine h1 k' sn ?_ y v h3
    unfold Dev.exec at h2
    split at h2
    · split at h2
      · simp only at h2
        by_cases hk : k' = k
        · subst hk; rw [upd_same] at h2; simp at h2
        · rwa [upd_ne _ _ hk] at h2
      · exact h2
    · split at h2
      · simp only at h2
        by_cases hk : k' = k
        · subst hk; rw [upd_same] at h2; simp at h2
        · rwa [upd_ne _ _ hk] at h2
      · exact h2
    · exact h2

theorem wp_exec (d : Dev Nat Bytes) (p) (k x : Nat) :
    ({ d with pers := p } : Dev Nat Bytes).exec k x = { d.exec k x with pers := p } := by
  unfold Dev.exec
  simp only
  split
  · split <;> rfl
  · split <;> rfl
  · rfl

theorem wp_startMeta {s s' : Sys D} {b : Bool} (p : Nat → Bytes → Prop) (h : startMeta s b = some s') :
    ∃ p', startMeta (s.wp p) b = some (s'.wp p') ∧ Follow False s s' p p' := by
  unfold startMeta at h ⊢
  have e2 : (s.wp p).fl = s.fl := rfl
  simp only [e2]
  split at h
  · cases h
  · rename_i k mask q hq
    split at h
    · cases h
    · rename_i h1
      rw [if_neg h1]
      split at h
      · cases h
      · rename_i h2
        rw [if_neg h2]
        split at h
        · rename_i h3
          rw [if_pos h3]
          simp only [Option.some.injEq] at h
          subst h
          exact ⟨p, rfl, .same rfl⟩
        · rename_i h3
          rw [if_neg h3]
          split at h
          · rename_i h4
            rw [if_pos h4]
            simp only [Option.some.injEq] at h
            subst h
            exact ⟨_, rfl, issueWrite_follow (k := k) rfl⟩
          · rename_i h4
            rw [if_neg h4]
            simp only [Option.some.injEq] at h
            subst h
            exact ⟨p, rfl, .same rfl⟩

theorem wp_metaDone {c : Cfg D} {mv : Nat → Bytes} {s : Sys D} {k : Nat} {ok b : Bool} (p : Nat → Bytes → Prop)
    (hm : MetaInv c mv (s.wp p)) :
    ∃ p', metaDone (s.wp p) k ok b = (metaDone s k ok b).wp p' ∧
      Follow (ok = true ∧ ∃ sn, s.m.ops k = some (.flush sn)) s (metaDone s k ok b) p p' := by
  unfold metaDone
  have e2 : (s.wp p).fl = s.fl := rfl
  simp only [e2]
  cases hu : s.fl.updates k with
  | none => exact ⟨_, rfl, complete_follow rfl⟩
  | some u =>
    simp only
    split
    · cases hst : u.stage with
      | writing =>
        simp only
        have hno : ∀ sn, s.m.ops k ≠ some (.flush sn) := by
          have := (hm.upd k u hu).stage
          unfold StageOk at this
          simp only [hst] at this
          obtain ⟨data, done, h1, -⟩ := this
          intro sn h2
          have h1' : s.m.ops k = _ := h1
          rw [h2] at h1'; simp at h1'
        split
        · exact ⟨_, rfl, completeFlush_follow (ok := ok) hno rfl⟩
        · exact ⟨_, rfl, complete_follow rfl⟩
      | flushing => exact ⟨_, rfl, complete_follow rfl⟩
    · exact ⟨_, rfl, complete_follow rfl⟩

/-- Steps do not look at what may survive on the metadata device. -/
theorem step_wp {c : Cfg D} {mv : Nat → Bytes} {s s' : Sys D} {a : Act D} {ls : List (Lab D)} (p : Nat → Bytes → Prop)
    (hm : MetaInv c mv (s.wp p)) (h : Step c s a ls s') :
    ∃ p', Step c (s.wp p) a ls (s'.wp p') ∧ Follow (metaFlush s a) s s' p p' := by
  cases h with
  | read q id off cnt sendOk hv hg hid =>
    have := Step.read (s.wp p) q id off cnt sendOk hv hg hid
    rw [wp_addRead] at this
    refine ⟨p, this, .same ?_⟩
    unfold addRead enqueueReq toBase
    simp only
    split
    · rfl
    · rfl
    · split
      · rfl
      · split <;> rfl
  | write q id off cnt data sendOk hv hid =>
    have := Step.write (s.wp p) q id off cnt data sendOk hv hid
    rw [wp_addWrite] at this
    refine ⟨p, this, .same ?_⟩
    unfold addWrite enqueueReq toBase
    simp only
    split
    · rfl
    · split
      · rfl
      · split <;> rfl
    · split <;> rfl
  | flush q id hid => exact ⟨p, .flush (s.wp p) q id hid, .same rfl⟩
  | processQueue q b _ _ h =>
    refine ⟨p, .processQueue _ q b _ _ (wp_processQueue p h), .same ?_⟩
    unfold processQueue at h
    split at h
    · cases h
    · split at h
      · cases h
      · simp only [Option.some.injEq, Prod.mk.injEq] at h; rw [← h.1]; rfl
      · split at h
        · cases h
        · split at h
          · simp only [Option.some.injEq, Prod.mk.injEq] at h
            rw [← h.1]
            unfold toBase
            split <;> rfl
          · simp only [Option.some.injEq, Prod.mk.injEq] at h; rw [← h.1]; rfl
  | reportFinished q id ok rest h => exact ⟨p, .reportFinished (s.wp p) q id ok rest h, .same rfl⟩
  | baseDone q id ok h => exact ⟨p, .baseDone (s.wp p) q id ok h, .same rfl⟩
  | imageDone q id ok off cnt h => exact ⟨p, .imageDone (s.wp p) q id ok off cnt h, .same rfl⟩
  | execData o x => exact ⟨p, .execData (s.wp p) o x, .same rfl⟩
  | execMeta k x =>
    refine ⟨p, ?_, exec_follow rfl⟩
    have := Step.execMeta (c := c) (s.wp p) k x
    have e : (s.wp p).m.exec k x = { s.m.exec k x with pers := p } := wp_exec _ _ _ _
    rw [e] at this
    exact this
  | receiveFetch k ms h =>
    have := Step.receiveFetch (c := c) (s.wp p) k ms h
    have e := wp_handleFetch { s with msgs := ms } p k
    have e' : ({ s.wp p with msgs := ms } : Sys D) = ({ s with msgs := ms } : Sys D).wp p := rfl
    rw [e', e] at this
    refine ⟨p, this, .same ?_⟩
    unfold handleFetch; split
    · rfl
    · split <;> rfl
  | receiveWritten k ms h => exact ⟨p, .receiveWritten (s.wp p) k ms h, .same rfl⟩
  | autofetch k ks ha hq h =>
    have := Step.autofetch (c := c) (s.wp p) k ks ha hq h
    have e := wp_handleFetch { s with fe := { s.fe with autoq := ks } } p k
    have e' : ({ s.wp p with fe := { (s.wp p).fe with autoq := ks } } : Sys D) = ({ s with fe := { s.fe with autoq := ks } } : Sys D).wp p := rfl
    rw [e', e] at this
    refine ⟨p, this, .same ?_⟩
    unfold handleFetch; split
    · rfl
    · split <;> rfl
  | startFetch b _ _ h =>
    refine ⟨p, .startFetch _ b _ _ (wp_startFetch p h), .same ?_⟩
    unfold startFetch at h
    split at h
    · split at h
      · simp only [Option.some.injEq, Prod.mk.injEq] at h; rw [← h.1]
      · simp only [Option.some.injEq, Prod.mk.injEq] at h; rw [← h.1]
        unfold fetchCompleted; simp only; split
        · rename_i h1; cases h1
        · split <;> rfl
    · cases h
  | sourceDone k ok b g _ _ h =>
    refine ⟨p, .sourceDone _ k ok b g _ _ (wp_sourceDone p h), .same ?_⟩
    have hfc : ∀ (s0 : Sys D) ok, (fetchCompleted s0 k ok).1.m = s0.m := by
      intro s0 ok; unfold fetchCompleted; simp only; split
      · rfl
      · split <;> rfl
    unfold sourceDone at h
    split at h
    · simp only at h
      split at h
      · simp only [Option.some.injEq, Prod.mk.injEq] at h; rw [← h.1]
      · split at h
        · split at h
          · simp only [Option.some.injEq, Prod.mk.injEq] at h; rw [← h.1]
          · simp only [Option.some.injEq] at h
            have h9 := congrArg (fun r => r.1.m) h; simp only [hfc] at h9; exact h9.symm
        · simp only [Option.some.injEq] at h
          have h9 := congrArg (fun r => r.1.m) h; simp only [hfc] at h9; exact h9.symm
    · cases h
  | targetDone k ok b h =>
    have := Step.targetDone (c := c) (s.wp p) k ok b h
    rw [wp_targetDone] at this
    refine ⟨p, this, .same ?_⟩
    have hfc : ∀ (s0 : Sys D) ok, (fetchCompleted s0 k ok).1.m = s0.m := by
      intro s0 ok; unfold fetchCompleted; simp only; split
      · rfl
      · split <;> rfl
    unfold targetDone
    simp only
    split
    · split
      · split
        · rfl
        · rw [hfc]
      · rw [hfc]
      · rfl
    · rw [hfc]
  | takeFinished k ok rest h => exact ⟨p, .takeFinished (s.wp p) k ok rest h, .same rfl⟩
  | startMeta b _ h =>
    obtain ⟨p', h1, h2⟩ := wp_startMeta p h
    exact ⟨p', .startMeta _ b _ h1, h2⟩
  | metaDone k ok b h =>
    obtain ⟨p', h1, h2⟩ := wp_metaDone (k := k) (ok := ok) (b := b) p hm
    refine ⟨p', ?_, h2⟩
    rw [← h1]
    exact .metaDone (s.wp p) k ok b h
  | disconnect hd hb hc => exact ⟨p, .disconnect (s.wp p) hd hb hc, .same rfl⟩

theorem Dev.Inv.drop {O D : Type} [DecidableEq O] {d : Dev O D} (h : d.Inv) : ({ d with ops := fun _ => none } : Dev O D).Inv := by
  refine ⟨h.vol_pers, ?_, ?_, ?_⟩
  · intro o snap h1; simp at h1
  · rintro x v ⟨o, _, _, _, _, h1, _⟩; simp at h1
  · intro o snap h1; simp at h1

theorem kill_sim {c : Cfg D} {g : Nat → D} {hdrs : Bytes} {mv : Nat → Bytes} {s : Sys D} {a : Disk D} {md' : Meta}
    (hb : Bootable c hdrs mv) (hm : MetaInv c mv s) (h : Sim c g s a none)
    (hpin : Pins c g s fun k => (Shared.load md'.headers).isLocal k = true)
    (hld : fromBytes (devBytes c.msec s.m.vol) = .ok md') (b0 : Nat → Nat → D) :
    Bootable c md'.headers s.m.vol ∧ Sim c g (s.restart c md'.headers b0) (Disk.kill a) none := by
  obtain ⟨md2, h1, hb', hh⟩ := reload hb hm (mv' := s.m.vol) hm.dev.vol_pers
  rw [hld] at h1
  simp only [Except.ok.injEq] at h1
  subst h1
  refine ⟨hb', ?_⟩
  have hlz : ∀ q id, locs (s.restart c md'.headers b0) q id = 0 := by
    intro q id; simp [locs, Sys.restart, Sys.boot, Dev.kinds]
  have hloc : ∀ k, (s.restart c md'.headers b0).sh.isLocal k =
      (!flag (md'.headers.getD k 0) HAS_SOURCE || flag (md'.headers.getD k 0) FETCHED) := by
    intro k
    show (Sys.boot c md'.headers s.t.vol s.m.vol b0).sh.isLocal k = _
    rw [boot_isLocal]
  have hset : ∀ k, settled (s.restart c md'.headers b0) k → settled s k := by
    rintro k (h1 | h1)
    · rw [hloc] at h1
      by_cases hk : k < c.n
      · have hok := hh _ hk
        by_cases hfe : flag (md'.headers.getD k 0) FETCHED = true
        · exact hok.settled hfe
        · left
          apply (h.nosrc _).2
          rw [← hok.src]
          revert h1 hfe
          cases flag (md'.headers.getD k 0) HAS_SOURCE <;> cases flag (md'.headers.getD k 0) FETCHED <;> simp
      · left
        apply (h.nosrc _).2
        rw [hb'.hs, List.getD_eq_getElem?_getD, List.getElem?_eq_none (by have := hb'.len; omega)]
        rfl
    · simp [Sys.restart, Sys.boot] at h1
  have hrdy : ∀ x, x < c.tsec → ready c (s.restart c md'.headers b0) x → ready c s x ∨
      (c.src x = none ∧ s.sh.isLocal (x / c.ss) = false ∧ settled s (x / c.ss) ∧ a.vol x = s.t.vol x) := by
    intro x hx hs
    have hbl : (Shared.load md'.headers).isLocal (x / c.ss) = true := by
      rcases hs with h1 | ⟨-, h1⟩
      · exact h1
      · simp [Sys.restart, Sys.boot] at h1
    have h1 := hset _ hs.settled
    cases hl : s.sh.isLocal (x / c.ss) with
    | true => exact .inl (.inl hl)
    | false =>
      by_cases hsx : c.src x = none
      · refine .inr ⟨hsx, rfl, h1, ?_⟩
        rw [h.src x hx hl, hsx, ← hpin x hx hsx hbl hl]; rfl
      · exact .inl (.inr ⟨hsx, h1.resolve_left (by rw [hl]; simp)⟩)
  refine ⟨Dev.Inv.drop h.tinv, Dev.Inv.drop h.ainv, ?_, ?_, ?_, ?_, ?_, ?_, ?_, ?_, ?_, ?_, ?_, ?_, ?_, by simp⟩
  · intro k
    constructor
    · intro h1
      rw [hb'.hs k]
      simp only [Sys.restart, Sys.boot, Shared.load, loadFs] at h1
      split at h1
      · split at h1 <;> simp at h1
      · rename_i h2; simpa using h2
    · intro h1
      rw [hloc, ← hb'.hs k, h1]; rfl
  · intro x hx hs
    rcases hrdy x hx hs with h1 | ⟨h1, h2, h3, h4⟩
    · exact h.vol x hx h1
    · exact h4.symm
  · intro x w hx hs hp
    rcases hrdy x hx hs with h1 | ⟨h1, h2, h3, h4⟩
    · exact h.pers x w hx h1 hp
    · rw [h.stable x hx h3 h2 w hp]
      show a.pers x (s.t.vol x)
      rw [← h4]
      exact h.ainv.vol_pers x
  · intro x hx hl
    rw [hloc] at hl
    have hf : flag (md'.headers.getD (x / c.ss) 0) HAS_SOURCE = true ∧ flag (md'.headers.getD (x / c.ss) 0) FETCHED = false := by
      revert hl
      cases flag (md'.headers.getD (x / c.ss) 0) HAS_SOURCE <;> cases flag (md'.headers.getD (x / c.ss) 0) FETCHED <;> simp
    have hk : x / c.ss < c.n := by
      refine Nat.lt_of_not_le fun hk => ?_
      have := hb'.len
      rw [List.getD_eq_getElem?_getD, List.getElem?_eq_none (by omega)] at hf
      have := hf.1
      simp [flag] at this
    have hok := hh _ hk
    apply h.src x hx
    cases hl : s.sh.isLocal (x / c.ss) with
    | false => rfl
    | true =>
      exfalso
      simp only [Shared.isLocal, Bool.or_eq_true, decide_eq_true_eq] at hl
      rcases hl with hl | hl
      · rw [hok.fetched hl] at hf; simp at hf
      · have := (h.nosrc _).1 hl
        rw [← hok.src, hf.1] at this; simp at this
  · intro x _ hs hl
    exfalso
    rcases hs with h1 | h1
    · rw [h1] at hl; simp at hl
    · simp [Sys.restart, Sys.boot] at h1
  · intro k off cnt data done h; simp [Sys.restart] at h
  · intro k snap h; simp [Sys.restart] at h
  · intro q id op h; simp [Sys.restart] at h
  · intro q r h; simp [Sys.restart, Sys.boot] at h
  · intro q id ok h; simp [Sys.restart, Sys.boot] at h
  · intro q id off cnt h; simp [Sys.restart, Sys.boot] at h
  · intro q id; rw [hlz]; omega
  · intro q id _; exact Or.inl rfl

/-- After the restart the flusher and fetcher are as after a start; the metadata device is clean if we forget what
might be lost. -/
theorem kill_good {c : Cfg D} {hdrs : Bytes} {s : Sys D} (hb : Bootable c hdrs s.m.vol) (b0 : Nat → Nat → D) :
    Good c ((s.restart c hdrs b0).wp fun x v => v = s.m.vol x) := by
  refine ⟨⟨hdrs, s.m.vol, hb, (boot_meta (tv := s.t.vol) (b0 := b0) hb).frame ⟨rfl, rfl, rfl⟩ rfl ?_ ?_ ?_ ?_ ?_⟩, ?_⟩
  · intro k mask h; exact .inl h
  · intro k; exact Iff.rfl
  · intro k; rfl
  · intro k h; exact h
  · intro k h; exact h
  · have hf := boot_fetch (tv := s.t.vol) (b0 := b0) hb
    exact ⟨fun k => (hf.ok k).congr rfl Iff.rfl rfl rfl rfl rfl, hf.nodup, hf.fin, hf.bound, hf.mbound, hf.wbound, hf.abound⟩

theorem Sim.wp {c : Cfg D} {g : Nat → D} {s : Sys D} {a : Disk D} {ex} (h : Sim c g s a ex) (p) : Sim c g (s.wp p) a ex :=
  h.frame (s' := s.wp p) rfl rfl (fun _ h => h) (fun _ h => h) (fun _ h => h) (fun _ _ _ => .inl)

theorem Family.wp {c : Cfg D} {s : Sys D} {P : (Nat → D) → Disk D → Prop} (h : Family c s P) (p) : Family c (s.wp p) P := by
  obtain ⟨h0, h⟩ := h
  refine ⟨h0, fun g hg => ?_⟩
  obtain ⟨a, h1, h2⟩ := h g hg
  exact ⟨a, h1, h2.wp p⟩

theorem Family.kill {c : Cfg D} {hdrs : Bytes} {mv : Nat → Bytes} {s : Sys D} {md' : Meta} {P P' : (Nat → D) → Disk D → Prop}
    (hb : Bootable c hdrs mv) (hm : MetaInv c mv s) (h : Family c s P) (hld : fromBytes (devBytes c.msec s.m.vol) = .ok md')
    (b0 : Nat → Nat → D) (hp : ∀ g a, P g a → P' g (Disk.kill a)) :
    Bootable c md'.headers s.m.vol ∧ Family c (s.restart c md'.headers b0) P' := by
  obtain ⟨md2, h1, hb', hh⟩ := reload hb hm (mv' := s.m.vol) hm.dev.vol_pers
  rw [hld] at h1
  simp only [Except.ok.injEq] at h1
  subst h1
  obtain ⟨h0, h⟩ := h
  refine ⟨hb', fun x => if s.sh.isLocal (x / c.ss) = true then h0 x else s.t.vol x, fun g hg => ?_⟩
  obtain ⟨a0, -, hsim0⟩ := h h0 fun _ _ _ _ _ => rfl
  obtain ⟨a, h1, h2⟩ := h g fun x hx hs hsrc hl => by
    have hfe : s.sh.fs (x / c.ss) = .fetched := by
      simp only [Shared.isLocal, Bool.or_eq_true, decide_eq_true_eq] at hl
      rcases hl with hl | hl
      · exact hl
      · rw [(hsim0.nosrc _).1 hl] at hsrc; simp at hsrc
    have := hg x hx hs hsrc (by
      show (Sys.boot c md'.headers s.t.vol s.m.vol b0).sh.isLocal _ = true
      rw [boot_isLocal]
      by_cases hk : x / c.ss < c.n
      · rw [(hh _ hk).fetched hfe]; simp
      · rw [List.getD_eq_getElem?_getD, List.getElem?_eq_none (by have := hb'.len; omega)]; rfl)
    simpa only [hl, if_true] using this
  exact ⟨_, hp g a h1, (kill_sim hb hm h2 (fun x hx hsx hbl hl => by
    have hsrc : c.hs (x / c.ss) = true := by
      cases h5 : c.hs (x / c.ss) with
      | true => rfl
      | false => rw [(h2.nosrc _).2 h5] at hl; simp at hl
    have := hg x hx hsx hsrc hbl
    simpa [hl] using this) hld b0).2⟩

/-- What a safe run keeps: a set `p` of metadata contents consistent with everything the backend trusts, and what
really may survive is inside `p` unless we are in the window. -/
def SafeInv (c : Cfg D) (s : Sys D) (P : (Nat → D) → Disk D → Prop) (d : Bool) : Prop :=
  ∃ p, Good c (s.wp p) ∧ Family c s P ∧
    ((∀ x v, s.m.pers x v → p x v) ∨
      (d = true ∧ ∀ k sn, s.m.ops k = some (.flush sn) → ∀ x v, sn x v → p x v))

theorem SafeInv.step {c : Cfg D} (hss : 0 < c.ss) {s s' : Sys D} {P P' : (Nat → D) → Disk D → Prop} {d : Bool} {act : Act D} {ls : List (Lab D)}
    (h : SafeInv c s P d) (hst : Step c s act ls s') (hP : ∀ g a a', P g a → Disk.Run a (visible ls) a' → P' g a') :
    SafeInv c s' P' d ∧ (metaFlush s act → SafeInv c s' P' false) := by
  obtain ⟨p, ⟨⟨hd', mv', hb', hm⟩, hf⟩, hsim, hp⟩ := h
  obtain ⟨p', hst', hfo⟩ := step_wp p hm hst
  have h2 : Family c (s'.wp p') P' := (hsim.wp p).step hss hf hm hst' (step_loc hf hst') hP
  have hg : Good c (s'.wp p') := ⟨⟨hd', mv', hb', step_meta hf hm hst'⟩, step_fetch hf hm hst'⟩
  have hv : ∀ x, p x (s.m.vol x) := hm.dev.vol_pers
  have hfly : ∀ x v, s.m.inflight x v → p x v := hm.dev.fly_pers
  refine ⟨⟨p', hg, (h2.wp s'.m.pers), ?_⟩, fun hmf => ⟨p', hg, (h2.wp s'.m.pers), .inl ?_⟩⟩
  · rcases hp with hp | ⟨hd, hp⟩
    · exact .inl (hfo.sub hp)
    · rcases hfo.snap hv hfly hp with h3 | h3
      · exact .inr ⟨hd, h3⟩
      · exact .inl h3
  · rcases hp with hp | ⟨hd, hp⟩
    · exact hfo.sub hp
    · exact hfo.flush hmf hp

theorem Disk.Run.toK {d0 d d' : Disk D} {es : List (Option (Ev D))} {es' : List (Ev D)} (h : Disk.KRun d0 es d) (h' : Disk.Run d es' d') :
    Disk.KRun d0 (es ++ es'.map some) d' := by
  induction h' with
  | nil => simpa using h
  | snoc _ h2 ih => rw [List.map_append, ← List.append_assoc]; exact ih.snoc h2

theorem safe_sim {c : Cfg D} {hdrs : Bytes} {tv : Nat → D} {mv : Nat → Bytes} {b0 : Nat → Nat → D} {s0 s : Sys D}
    {es : List (Option (Ev D))} {d : Bool} (hb : Bootable c hdrs mv) (hs0 : s0 = Sys.boot c hdrs tv mv b0)
    (h : SafeRun c s0 es s d) :
    SafeInv c s (fun g a => Disk.KRun (Dev.fresh (preloadWith c g hdrs tv)) es a) d := by
  subst hs0
  induction h with
  | nil =>
    exact ⟨fun x v => v = mv x, ⟨⟨hdrs, mv, hb, boot_meta hb⟩, boot_fetch hb⟩,
      (Family.boot hb).mono (by rintro g a rfl; exact .nil _), .inl fun _ _ h => h⟩
  | step _ hst ih => exact (ih.step hb.ss hst fun _ _ _ hr h1 => Disk.Run.toK hr h1).1
  | flush _ hst hfl ih => exact (ih.step hb.ss hst fun _ _ _ hr h1 => Disk.Run.toK hr h1).2 hfl
  | @crash _ es _ _ _ b0' _ ht hm' hld ih =>
    obtain ⟨p, ⟨⟨hd', mv', hb', hm⟩, hf⟩, hsim, hp⟩ := ih
    rcases hp with hp | ⟨hp, -⟩
    · obtain ⟨h1, h3⟩ := (hsim.wp p).crash (P' := fun g a => Disk.KRun (Dev.fresh (preloadWith c g hdrs tv)) (es ++ [some .crash]) a)
        hb' hm ht (fun x => hp x _ (hm' x)) hld b0'
        (fun g a v hr h2 => Disk.Run.toK (es' := [.crash]) hr (.snoc (.nil _) (.crash a v h2)))
      exact ⟨fun x v => v = _, ⟨⟨_, _, h1, boot_meta h1⟩, boot_fetch h1⟩, h3, .inl fun _ _ h => h⟩
    · simp at hp
  | @kill _ es _ _ b0' _ hld ih =>
    obtain ⟨p, ⟨⟨hd', mv', hb', hm⟩, hf⟩, hsim, hp⟩ := ih
    obtain ⟨h1, h2⟩ := (hsim.wp p).kill (P' := fun g a => Disk.KRun (Dev.fresh (preloadWith c g hdrs tv)) (es ++ [none]) a)
      hb' hm hld b0' (fun g a hr => hr.kill)
    refine ⟨_, kill_good (s := _) h1 b0', h2.wp _, .inr ⟨rfl, ?_⟩⟩
    intro k sn h; cases h
  | @cleanKill _ es _ _ b0' _ hld hcl ih =>
    obtain ⟨p, ⟨⟨hd', mv', hb', hm⟩, hf⟩, hsim, hp⟩ := ih
    obtain ⟨h1, h2⟩ := (hsim.wp p).kill (P' := fun g a => Disk.KRun (Dev.fresh (preloadWith c g hdrs tv)) (es ++ [none]) a)
      hb' hm hld b0' (fun g a hr => hr.kill)
    exact ⟨_, kill_good (s := _) h1 b0', h2.wp _, .inl hcl⟩

end Verif.Lazy
