import Verif.Model.Stack
import Verif.Proof.Lag
import Verif.Proof.LazyRun

/-! The open lazy disk over plain disks behaves like the closed one of Model/Lazy. -/

set_option maxRecDepth 8000

namespace Verif.Stack
open Verif Verif.Metadata Verif.Disk Verif.Lazy

variable {D : Type} {c : Cfg D}

def issueAll {O E : Type} [DecidableEq O] (t : Dev O E) (l : List (O × Req E)) : Dev O E := l.foldl (fun t p => t.issue p.1 p.2) t

/-- The same state over other devices. -/
def wd (s : Sys D) (t : Dev Owner D) (m : Dev Nat Bytes) : Sys D := { s with t := t, m := m }

/-! ### Steps do not depend on the contents of the devices -/

theorem toBase_wd (s : Sys D) (q : Nat) (r : QReq D) (t m) :
    toBase (wd s t m) q r = wd (toBase s q r) (t.issue (.guest q r.id) (reqOf r)) m ∧
    (toBase s q r).t = s.t.issue (.guest q r.id) (reqOf r) ∧ (toBase s q r).m = s.m := by
  unfold toBase reqOf
  cases r.out <;> exact ⟨rfl, rfl, rfl⟩

theorem wd_self (s : Sys D) : wd s s.t s.m = s := rfl

theorem enqueueReq_wd (s : Sys D) (q : Nat) (r : QReq D) (b : Bool) (t m) :
    enqueueReq c (wd s t m) q r b = (wd (enqueueReq c s q r b).1 t m, (enqueueReq c s q r b).2) ∧
    (enqueueReq c s q r b).1.t = s.t ∧ (enqueueReq c s q r b).1.m = s.m ∧ (enqueueReq c s q r b).2.flatMap (handed c s) = [] := by
  cases b <;> exact ⟨rfl, rfl, rfl, rfl⟩

theorem addRead_wd (s : Sys D) (q id off cnt : Nat) (b : Bool) (t m) :
    addRead c (wd s t m) q id off cnt b =
      (wd (addRead c s q id off cnt b).1 (issueAll t ((addRead c s q id off cnt b).2.flatMap (handed c s))) m, (addRead c s q id off cnt b).2) ∧
    (addRead c s q id off cnt b).1.t = issueAll s.t ((addRead c s q id off cnt b).2.flatMap (handed c s)) ∧
    (addRead c s q id off cnt b).1.m = s.m := by
  unfold addRead
  simp only [show (wd s t m).sh = s.sh from rfl]
  generalize fetchStatus s.sh (stripes c { id := id, off := off, cnt := cnt, out := none }) = st
  cases st with
  | complete => exact ⟨rfl, rfl, rfl⟩
  | failed => exact ⟨rfl, rfl, rfl⟩
  | pending =>
    simp only
    split
    · exact ⟨rfl, rfl, rfl⟩
    · obtain ⟨h1, h2, h3, h4⟩ := enqueueReq_wd (c := c) s q { id := id, off := off, cnt := cnt, out := none } b t m
      rw [h4]
      exact ⟨h1, h2, h3⟩

theorem addWrite_wd (s : Sys D) (q id off cnt : Nat) (data : Nat → D) (b : Bool) (t m) :
    addWrite c (wd s t m) q id off cnt data b =
      (wd (addWrite c s q id off cnt data b).1 (issueAll t ((addWrite c s q id off cnt data b).2.flatMap (handed c s))) m,
        (addWrite c s q id off cnt data b).2) ∧
    (addWrite c s q id off cnt data b).1.t = issueAll s.t ((addWrite c s q id off cnt data b).2.flatMap (handed c s)) ∧
    (addWrite c s q id off cnt data b).1.m = s.m := by
  obtain ⟨h1, h2, h3, h4⟩ := enqueueReq_wd (c := c) s q { id := id, off := off, cnt := cnt, out := some data } b t m
  unfold addWrite
  simp only [show (wd s t m).sh = s.sh from rfl]
  generalize fetchStatus s.sh (stripes c { id := id, off := off, cnt := cnt, out := some data }) = st
  cases st with
  | complete =>
    simp only
    split
    · exact ⟨rfl, rfl, rfl⟩
    · rw [h4]; exact ⟨h1, h2, h3⟩
  | failed => exact ⟨rfl, rfl, rfl⟩
  | pending => simp only; rw [h4]; exact ⟨h1, h2, h3⟩

theorem processQueue_wd {s s' : Sys D} {q : Nat} {ls : List (Lab D)} (h : processQueue c s q true = some (s', ls)) (t m) :
    processQueue c (wd s t m) q true = some (wd s' (issueAll t (ls.flatMap (handed c s))) m, ls) ∧
    s'.t = issueAll s.t (ls.flatMap (handed c s)) ∧ s'.m = s.m := by
  unfold processQueue at h ⊢
  simp only [show (wd s t m).sh = s.sh from rfl, show (wd s t m).ch = s.ch from rfl]
  generalize (s.ch q).queue = qu at h ⊢
  cases qu with
  | nil => simp at h
  | cons r rest =>
    simp only at h ⊢
    generalize fetchStatus s.sh (stripes c r) = st at h ⊢
    cases st with
    | pending => simp at h
    | failed =>
      simp only [Option.some.injEq, Prod.mk.injEq] at h
      obtain ⟨rfl, rfl⟩ := h
      exact ⟨rfl, rfl, rfl⟩
    | complete =>
      simp only at h ⊢
      split at h
      · simp at h
      · rename_i hn
        rw [if_neg hn]
        simp only [if_true, Option.some.injEq, Prod.mk.injEq] at h ⊢
        obtain ⟨rfl, rfl⟩ := h
        obtain ⟨h1, h2, h3⟩ := toBase_wd (s.setCh q fun ch =>
          { ch with queue := rest, requested := fun k => ch.requested k && !(stripes c r).contains k }) q r t m
        exact ⟨⟨h1, rfl⟩, h2, h3⟩

theorem handleFetch_wd (s : Sys D) (k : Nat) (t m) :
    Lazy.handleFetch (wd s t m) k = (wd (Lazy.handleFetch s k).1 t m, (Lazy.handleFetch s k).2) ∧
    (Lazy.handleFetch s k).1.t = s.t ∧ (Lazy.handleFetch s k).1.m = s.m ∧ ∀ s0, (Lazy.handleFetch s k).2.flatMap (handed c s0) = [] := by
  unfold Lazy.handleFetch
  simp only [show (wd s t m).sh = s.sh from rfl, show (wd s t m).fe = s.fe from rfl]
  split
  · exact ⟨rfl, rfl, rfl, fun _ => rfl⟩
  · split
    · exact ⟨rfl, rfl, rfl, fun _ => rfl⟩
    · exact ⟨rfl, rfl, rfl, fun _ => rfl⟩

theorem fetchCompleted_wd (s : Sys D) (k : Nat) (ok : Bool) (t m) :
    fetchCompleted (wd s t m) k ok = (wd (fetchCompleted s k ok).1 t m, (fetchCompleted s k ok).2) ∧
    (fetchCompleted s k ok).1.t = s.t ∧ (fetchCompleted s k ok).1.m = s.m ∧ ∀ s0, (fetchCompleted s k ok).2.flatMap (handed c s0) = [] := by
  unfold fetchCompleted
  simp only [show (wd s t m).fe = s.fe from rfl]
  split
  · exact ⟨rfl, rfl, rfl, fun _ => rfl⟩
  · split
    · exact ⟨rfl, rfl, rfl, fun _ => rfl⟩
    · exact ⟨rfl, rfl, rfl, fun _ => rfl⟩

theorem startFetch_wd {s s' : Sys D} {b : Bool} {ls : List (Lab D)} (h : startFetch c s b = some (s', ls)) (t m) :
    startFetch c (wd s t m) b = some (wd s' t m, ls) ∧ s'.t = s.t ∧ s'.m = s.m ∧ ls.flatMap (handed c s) = [] := by
  unfold startFetch at h ⊢
  simp only [show (wd s t m).fe = s.fe from rfl]
  split at h
  · rename_i k q b0 free hq hf
    try rw [hq, hf]
    simp only at h ⊢
    split at h
    · rename_i hc
      rw [if_pos hc]
      simp only [Option.some.injEq, Prod.mk.injEq] at h
      obtain ⟨rfl, rfl⟩ := h
      exact ⟨rfl, rfl, rfl, rfl⟩
    · rename_i hc
      rw [if_neg hc]
      simp only [Option.some.injEq, Prod.mk.injEq] at h
      obtain ⟨rfl, rfl⟩ := h
      obtain ⟨h1, h2, h3, h4⟩ := fetchCompleted_wd (c := c) { s with fe := { s.fe with queue := q, free := free, alloc := upd s.fe.alloc k (some b0) } } k false t m
      refine ⟨?_, h2, h3, ?_⟩
      · rw [show ({ wd s t m with fe := { s.fe with queue := q, free := free, alloc := upd s.fe.alloc k (some b0) } } : Sys D) =
          wd { s with fe := { s.fe with queue := q, free := free, alloc := upd s.fe.alloc k (some b0) } } t m from rfl, h1]
      · rw [List.flatMap_cons, h4]; rfl
  · simp at h

theorem sourceDone_wd {s s' : Sys D} {k : Nat} {ok : Bool} {g : Nat → D} {ls : List (Lab D)}
    (h : sourceDone c s k ok true g = some (s', ls)) (t m) :
    sourceDone c (wd s t m) k ok true g = some (wd s' (issueAll t (ls.flatMap (handed c s))) m, ls) ∧
    s'.t = issueAll s.t (ls.flatMap (handed c s)) ∧ s'.m = s.m := by
  unfold sourceDone at h ⊢
  simp only [show (wd s t m).fe = s.fe from rfl]
  split at h
  · rename_i hs
    rw [if_pos hs]
    cases ha : s.fe.alloc k with
    | none =>
      simp only [ha, Option.some.injEq, Prod.mk.injEq] at h ⊢
      obtain ⟨rfl, rfl⟩ := h
      exact ⟨⟨rfl, rfl⟩, rfl, rfl⟩
    | some b =>
      simp only [ha] at h ⊢
      cases ok with
      | true =>
        simp only [if_true, Option.some.injEq, Prod.mk.injEq] at h ⊢
        obtain ⟨rfl, rfl⟩ := h
        simp only [List.flatMap_cons, List.flatMap_nil, handed, ha, List.append_nil]
        exact ⟨⟨rfl, trivial⟩, rfl, trivial⟩
      | false =>
        simp only [Bool.false_eq_true, if_false, Option.some.injEq] at h ⊢
        obtain ⟨h1, h2, h3, h4⟩ := fetchCompleted_wd (c := c) { s with fe := { s.fe with srcIn := upd s.fe.srcIn k false, bufs := upd s.fe.bufs b g } } k false t m
        rw [h] at h1 h2 h3 h4
        simp only at h1 h2 h3 h4
        rw [h4]
        exact ⟨h1, h2, h3⟩
  · simp at h

theorem startMeta_wd {s s' : Sys D} (h : startMeta s true = some s') (t m) :
    startMeta (wd s t m) true = some (wd s' t (issueAll m (handedMeta s (.startMeta true)))) ∧
    s'.t = s.t ∧ s'.m = issueAll s.m (handedMeta s (.startMeta true)) := by
  unfold startMeta at h ⊢
  simp only [handedMeta, show (wd s t m).fl = s.fl from rfl]
  split at h
  · simp at h
  · rename_i k mask q hq
    rw [hq]
    simp only
    split at h
    · simp at h
    · rename_i h1
      rw [if_neg h1]
      split at h
      · simp at h
      · rename_i h2
        rw [if_neg h2]
        split at h
        · rename_i h3
          rw [if_pos h3, if_pos h3]
          simp only [Option.some.injEq] at h
          subst h
          exact ⟨rfl, rfl, rfl⟩
        · rename_i h3
          rw [if_neg h3, if_neg h3]
          simp only [if_true, Option.some.injEq] at h ⊢
          subst h
          exact ⟨rfl, rfl, rfl⟩

theorem idFree_wd {s : Sys D} {t : Dev Owner D} {m : Dev Nat Bytes} (ht : ∀ o, s.t.ops o = none ↔ t.ops o = none) {q id : Nat}
    (h : s.idFree q id) : (wd s t m).idFree q id := ⟨(ht _).1 h.1, h.2⟩

theorem idle_wd {n : Nat} {fe : Fetcher D} {t t' : Dev Owner D} (ht : ∀ o, t.ops o = none ↔ t'.ops o = none) :
    fe.idle n t = fe.idle n t' := by
  unfold Fetcher.idle
  have : ∀ k, (t.ops (.fetch k)).isNone = (t'.ops (.fetch k)).isNone := fun k => by
    rw [Bool.eq_iff_iff, Option.isNone_iff_eq_none, Option.isNone_iff_eq_none]; exact ht _
  simp only [this]

theorem handedMeta_nil {s : Sys D} {a : Act D} (h : ∀ b, a ≠ .startMeta b) : handedMeta s a = [] := by
  cases a <;> first | rfl | exact absurd rfl (h _)

theorem call_wd {s s' : Sys D} {a : Act D} {ls : List (Lab D)} (ha : isCall a = true) (h : Step c s a ls s')
    {t : Dev Owner D} {m : Dev Nat Bytes} (ht : ∀ o, s.t.ops o = none ↔ t.ops o = none) :
    Step c (wd s t m) a ls (wd s' (issueAll t (ls.flatMap (handed c s))) (issueAll m (handedMeta s a))) ∧
    s'.t = issueAll s.t (ls.flatMap (handed c s)) ∧ s'.m = issueAll s.m (handedMeta s a) := by
  cases h with
  | read q id off cnt b hv hg hid =>
    obtain ⟨h1, h2, h3⟩ := addRead_wd (c := c) s q id off cnt b t m
    have := Step.read (wd s t m) q id off cnt b hv hg (idFree_wd ht hid)
    rw [h1] at this
    exact ⟨this, h2, h3⟩
  | write q id off cnt data b hv hid =>
    obtain ⟨h1, h2, h3⟩ := addWrite_wd (c := c) s q id off cnt data b t m
    have := Step.write (wd s t m) q id off cnt data b hv (idFree_wd ht hid)
    rw [h1] at this
    exact ⟨this, h2, h3⟩
  | flush q id hid => exact ⟨Step.flush (wd s t m) q id (idFree_wd ht hid), rfl, rfl⟩
  | processQueue q b s' ls h =>
    cases b with
    | false => simp [isCall] at ha
    | true =>
      obtain ⟨h1, h2, h3⟩ := processQueue_wd h t m
      exact ⟨.processQueue _ _ _ _ _ h1, h2, h3⟩
  | reportFinished q id ok rest h => exact ⟨Step.reportFinished (wd s t m) q id ok rest h, rfl, rfl⟩
  | baseDone => simp [isCall] at ha
  | imageDone q id ok off cnt h =>
    exact ⟨Step.imageDone (wd s t m) q id ok off cnt h, rfl, rfl⟩
  | execData => simp [isCall] at ha
  | execMeta => simp [isCall] at ha
  | receiveFetch k ms h =>
    obtain ⟨h1, h2, h3, h4⟩ := handleFetch_wd (c := c) { s with msgs := ms } k t m
    have := Step.receiveFetch (c := c) (wd s t m) k ms h
    rw [show ({ wd s t m with msgs := ms } : Sys D) = wd { s with msgs := ms } t m from rfl, h1] at this
    rw [h4]
    exact ⟨this, h2, h3⟩
  | receiveWritten k ms h => exact ⟨Step.receiveWritten (wd s t m) k ms h, rfl, rfl⟩
  | autofetch k ks ha' hq h =>
    obtain ⟨h1, h2, h3, h4⟩ := handleFetch_wd (c := c) { s with fe := { s.fe with autoq := ks } } k t m
    have := Step.autofetch (c := c) (wd s t m) k ks ha' hq h
    rw [show ({ wd s t m with fe := { (wd s t m).fe with autoq := ks } } : Sys D) = wd { s with fe := { s.fe with autoq := ks } } t m from rfl, h1] at this
    rw [h4]
    exact ⟨this, h2, h3⟩
  | startFetch b s' ls h =>
    obtain ⟨h1, h2, h3, h4⟩ := startFetch_wd h t m
    rw [h4]
    exact ⟨.startFetch _ _ _ _ h1, h2, h3⟩
  | sourceDone k ok b g s' ls h =>
    cases b with
    | false => simp [isCall] at ha
    | true =>
      obtain ⟨h1, h2, h3⟩ := sourceDone_wd h t m
      exact ⟨.sourceDone _ _ _ _ _ _ _ h1, h2, h3⟩
  | targetDone => simp [isCall] at ha
  | takeFinished k ok rest h =>
    exact ⟨Step.takeFinished (wd s t m) k ok rest h, rfl, rfl⟩
  | startMeta b s' h =>
    cases b with
    | false => simp [isCall] at ha
    | true =>
      obtain ⟨h1, h2, h3⟩ := startMeta_wd h t m
      exact ⟨.startMeta _ _ _ h1, h2, h3⟩
  | metaDone => simp [isCall] at ha
  | disconnect hd hb hc =>
    exact ⟨Step.disconnect (wd s t m) hd (by rw [show (wd s t m).fe = s.fe from rfl, show (wd s t m).t = t from rfl, ← idle_wd ht]; exact hb) hc, rfl, rfl⟩

end Verif.Stack
