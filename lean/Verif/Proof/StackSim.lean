import Verif.Proof.Stack
import Verif.Proof.DiskTrace

/-! The open lazy disk over two plain disks runs like the closed one of Model/Lazy (`open_closed`). -/

set_option maxRecDepth 8000

namespace Verif.Stack
open Verif Verif.Metadata Verif.Disk Verif.Lazy

variable {D : Type} {c : Cfg D}

theorem addr_inj : Function.Injective addr := by
  intro o o' h
  cases o <;> cases o' <;> simp only [addr, Prod.mk.injEq] at h
  · obtain ⟨h1, h2⟩ := h
    rw [Nat.succ.inj h1, h2]
  · omega
  · omega
  · rw [h.2]

theorem maddr_inj : Function.Injective maddr := by
  intro k k' h
  simp only [maddr, Prod.mk.injEq] at h
  exact h.2

/-- What one step hands over: at most one request, under a free id. -/
def HandedOk {O E : Type} (t : Dev O E) (l : List (O × Req E)) : Prop := l = [] ∨ ∃ p, l = [p] ∧ t.ops p.1 = none

theorem addRead_handed (s : Sys D) (q id off cnt : Nat) (b : Bool) :
    (addRead c s q id off cnt b).2.flatMap (handed c s) = [] ∨
    ∃ r, (addRead c s q id off cnt b).2.flatMap (handed c s) = [(.guest q id, r)] := by
  unfold addRead
  simp only
  generalize fetchStatus s.sh (stripes c { id := id, off := off, cnt := cnt, out := none }) = st
  cases st with
  | complete => exact .inr ⟨_, rfl⟩
  | failed => exact .inl rfl
  | pending =>
    simp only
    split
    · exact .inl rfl
    · exact .inl (enqueueReq_wd (c := c) s q _ b s.t s.m).2.2.2

theorem addWrite_handed (s : Sys D) (q id off cnt : Nat) (data : Nat → D) (b : Bool) :
    (addWrite c s q id off cnt data b).2.flatMap (handed c s) = [] ∨
    ∃ r, (addWrite c s q id off cnt data b).2.flatMap (handed c s) = [(.guest q id, r)] := by
  unfold addWrite
  simp only
  generalize fetchStatus s.sh (stripes c { id := id, off := off, cnt := cnt, out := some data }) = st
  cases st with
  | complete =>
    simp only
    split
    · exact .inr ⟨_, rfl⟩
    · exact .inl (enqueueReq_wd (c := c) s q _ b s.t s.m).2.2.2
  | failed => exact .inl rfl
  | pending => exact .inl (enqueueReq_wd (c := c) s q _ b s.t s.m).2.2.2

theorem queued_free {s : Sys D} {g : Nat → D} {a : Disk D} {ex : Option (Nat × Nat)} (h : Sim c g s a ex) {q : Nat} {r : QReq D}
    (hr : r ∈ (s.ch q).queue) : s.t.ops (.guest q r.id) = none := by
  have h1 := h.one q r.id
  unfold locs at h1
  have h2 : 0 < (s.ch q).queue.countP (fun r' => decide (r'.id = r.id)) := List.countP_pos_iff.2 ⟨r, hr, by simp⟩
  cases hk : s.t.kinds (.guest q r.id) with
  | none => simpa [Dev.kinds] using hk
  | some k => rw [hk] at h1; simp only [Option.isSome_some, Bool.toNat_true] at h1; omega

theorem handed_ok {s s' : Sys D} {a : Act D} {ls : List (Lab D)} (hs : Sound c s) (ha : isCall a = true) (h : Step c s a ls s') :
    HandedOk s.t (ls.flatMap (handed c s)) := by
  cases h with
  | read q id off cnt b hv hg hid =>
    rw [List.flatMap_cons, show handed c s (.ev (.issue q id (.read off cnt))) = [] from rfl, List.nil_append]
    rcases addRead_handed (c := c) s q id off cnt b with e | ⟨r, e⟩
    · exact .inl e
    · exact .inr ⟨_, e, hid.1⟩
  | write q id off cnt data b hv hid =>
    rw [List.flatMap_cons, show handed c s (.ev (.issue q id (.write off cnt data))) = [] from rfl, List.nil_append]
    rcases addWrite_handed (c := c) s q id off cnt data b with e | ⟨r, e⟩
    · exact .inl e
    · exact .inr ⟨_, e, hid.1⟩
  | flush q id hid => exact .inr ⟨_, rfl, hid.1⟩
  | processQueue q b s' ls h =>
    obtain ⟨g, a, hsim⟩ := hs.sim
    unfold processQueue at h
    split at h
    · simp at h
    · rename_i r rest hq
      have hf := queued_free hsim (q := q) (r := r) (by rw [hq]; exact List.mem_cons_self ..)
      split at h
      · simp at h
      · simp only [Option.some.injEq, Prod.mk.injEq] at h
        rw [← h.2]; exact .inl rfl
      · split at h
        · simp at h
        · split at h
          · simp only [Option.some.injEq, Prod.mk.injEq] at h
            rw [← h.2]; exact .inr ⟨_, rfl, hf⟩
          · simp only [Option.some.injEq, Prod.mk.injEq] at h
            rw [← h.2]; exact .inl rfl
  | reportFinished q id ok rest h => exact .inl rfl
  | baseDone => simp [isCall] at ha
  | imageDone q id ok off cnt h => exact .inl rfl
  | execData => simp [isCall] at ha
  | execMeta => simp [isCall] at ha
  | receiveFetch k ms h => exact .inl ((handleFetch_wd (c := c) { s with msgs := ms } k s.t s.m).2.2.2 s)
  | receiveWritten k ms h => exact .inl rfl
  | autofetch k ks ha' hq h => exact .inl ((handleFetch_wd (c := c) { s with fe := { s.fe with autoq := ks } } k s.t s.m).2.2.2 s)
  | startFetch b s' ls h => exact .inl (startFetch_wd h s.t s.m).2.2.2
  | sourceDone k ok b g s' ls h =>
    have hok := hs.1.fetch.ok k
    unfold sourceDone at h
    split at h
    · rename_i hsi
      cases hal : s.fe.alloc k with
      | none =>
        simp only [hal, Option.some.injEq, Prod.mk.injEq] at h
        rw [← h.2]; exact .inl rfl
      | some bf =>
        simp only [hal] at h
        cases ok with
        | true =>
          cases b with
          | false => simp [isCall] at ha
          | true =>
            simp only [if_true, Option.some.injEq, Prod.mk.injEq] at h
            rw [← h.2]
            refine .inr ⟨_, by simp only [List.flatMap_cons, List.flatMap_nil, handed, hal, List.append_nil]; rfl, ?_⟩
            show s.t.ops (.fetch k) = none
            have : s.t.kinds (.fetch k) = none := by
              unfold StripeOk at hok
              rw [hsi] at hok
              unfold StripeOkC at hok
              split at hok <;> simp_all
            simpa [Dev.kinds] using this
        | false =>
          simp only [Bool.false_eq_true, if_false, Option.some.injEq] at h
          have h4 := (fetchCompleted_wd (c := c) { s with fe := { s.fe with srcIn := upd s.fe.srcIn k false, bufs := upd s.fe.bufs bf g } } k false s.t s.m).2.2.2 s
          rw [h] at h4
          exact .inl h4
    · simp at h
  | targetDone => simp [isCall] at ha
  | takeFinished k ok rest h => exact .inl rfl
  | startMeta b s' h => exact .inl rfl
  | metaDone => simp [isCall] at ha
  | disconnect hd hb hc => exact .inl rfl

theorem handedMeta_ok {s s' : Sys D} {a : Act D} {ls : List (Lab D)} (hs : Sound c s) (h : Step c s a ls s') :
    HandedOk s.m (handedMeta s a) := by
  cases h with
  | startMeta b s' h =>
    obtain ⟨⟨⟨hdrs, mv, hb, hm⟩, hf⟩, -⟩ := hs
    unfold handedMeta
    unfold startMeta at h
    simp only
    split
    · rename_i k mask q hq
      rw [hq] at h
      simp only at h
      split at h
      · simp at h
      · split at h
        · simp at h
        · rename_i hbusy
          split
          · exact .inl rfl
          · refine .inr ⟨_, rfl, hm.noupd k ?_⟩
            rcases hu : s.fl.updates k with _ | u
            · rfl
            · have := hm.upd k u hu
              exact absurd (this.sector ▸ this.busy) hbusy
    · exact .inl rfl
  | _ => exact .inl (by first | rfl | exact handedMeta_nil (by intro b hb; cases hb))

/-! ### The devices alone -/

theorem exec_ops {O E : Type} [DecidableEq O] (t : Dev O E) (o o' : O) (x : Nat) : (t.exec o x).ops o' = none ↔ t.ops o' = none := by
  unfold Dev.exec
  split
  · rename_i h
    split
    · by_cases e : o' = o
      · subst e; simp [upd, h]
      · simp [upd, e]
    · rfl
  · rename_i h
    split
    · by_cases e : o' = o
      · subst e; simp [upd, h]
      · simp [upd, e]
    · rfl
  · rfl

theorem issue_ops {O E : Type} [DecidableEq O] {t t' : Dev O E} (ht : ∀ o, t.ops o = none ↔ t'.ops o = none) (o : O) (r : Req E) :
    ∀ o', (t.issue o r).ops o' = none ↔ (t'.issue o r).ops o' = none := by
  intro o'
  by_cases e : o' = o
  · subst e
    cases r <;> simp [Dev.issue, Dev.issueRead, Dev.issueWrite, Dev.issueFlush, upd]
  · cases r <;> simp [Dev.issue, Dev.issueRead, Dev.issueWrite, Dev.issueFlush, upd, e, ht]

theorem issueAll_ops {O E : Type} [DecidableEq O] (l : List (O × Req E)) : ∀ {t t' : Dev O E}, (∀ o, t.ops o = none ↔ t'.ops o = none) →
    ∀ o', (issueAll t l).ops o' = none ↔ (issueAll t' l).ops o' = none := by
  induction l with
  | nil => intro t t' ht; exact ht
  | cons p l ih => intro t t' ht; exact ih (issue_ops ht p.1 p.2)

theorem complete_ops {O E : Type} [DecidableEq O] {t t' : Dev O E} (ht : ∀ o, t.ops o = none ↔ t'.ops o = none) (o : O) (ok : Bool) :
    ∀ o', (t.complete o ok).ops o' = none ↔ (t'.complete o ok).ops o' = none := by
  intro o'
  by_cases e : o' = o
  · subst e; simp [Dev.complete, upd]
  · simp [Dev.complete, upd, e, ht]

/-- Transfers only. -/
inductive Execs {O E : Type} [DecidableEq O] : Dev O E → Dev O E → Prop where
  | nil (t) : Execs t t
  | snoc {t t' : Dev O E} (o : O) (x : Nat) : Execs t t' → Execs t (t'.exec o x)

theorem Execs.ops {O E : Type} [DecidableEq O] {t t' : Dev O E} (h : Execs t t') (o : O) : t'.ops o = none ↔ t.ops o = none := by
  induction h with
  | nil => rfl
  | snoc o' x _ ih => rw [exec_ops, ih]

theorem run_nil_ind {E : Type} {d d' : Disk E} {es : List (Ev E)} (h : Disk.Run d es d') (he : es = []) (P : Disk E → Prop) (h0 : P d)
    (hs : ∀ d o x, P d → P (Dev.exec d o x)) : P d' := by
  induction h with
  | nil => exact h0
  | snoc hr hst ih =>
    obtain ⟨e1, e2⟩ := List.append_eq_nil_iff.1 he
    have := ih e1 
    cases hst with
    | exec o x => exact hs _ _ _ this
    | issue => cases e2
    | respond => cases e2
    | crash => cases e2

theorem _root_.Verif.Disk.Lag.silent {O E : Type} [DecidableEq O] {a : O → Nat × Nat} {box : O → Option (Bool × List (Option E))} {d d' : Disk E} {t : Dev O E}
    (ha : Function.Injective a) (h : Lag a box d t) (hr : Disk.Run d [] d') : ∃ t', Execs t t' ∧ Lag a box d' t' := by
  refine run_nil_ind hr rfl (fun d' => ∃ t', Execs t t' ∧ Lag a box d' t') ⟨t, .nil t, h⟩ ?_
  rintro d o x ⟨t', h1, h2⟩
  rcases h2.exec ha o x with h3 | ⟨o', -, h3⟩
  · exact ⟨t', h1, h3⟩
  · exact ⟨_, .snoc o' x h1, h3⟩

theorem run_execs_t {s0 s : Sys D} {ls : List (Lab D)} {t t' : Dev Owner D} {m : Dev Nat Bytes} (h : Lazy.Run c s0 ls (wd s t m))
    (he : Execs t t') : Lazy.Run c s0 ls (wd s t' m) := by
  induction he with
  | nil => exact h
  | snoc o x _ ih =>
    have := ih.step (Step.execData _ o x)
    rw [List.append_nil] at this
    exact this

theorem run_execs_m {s0 s : Sys D} {ls : List (Lab D)} {t : Dev Owner D} {m m' : Dev Nat Bytes} (h : Lazy.Run c s0 ls (wd s t m))
    (he : Execs m m') : Lazy.Run c s0 ls (wd s t m') := by
  induction he with
  | nil => exact h
  | snoc o x _ ih =>
    have := ih.step (Step.execMeta _ o x)
    rw [List.append_nil] at this
    exact this

theorem run_single {E : Type} {d d' : Disk E} {e : Ev E} (h : Disk.Run d [e] d') :
    ∃ d1 d2, Disk.Run d [] d1 ∧ Disk.Step d1 [e] d2 ∧ Disk.Run d2 [] d' := h.event

/-- A device at rest. -/
structure AtRest {E : Type} (d : Disk E) (v : Nat → E) : Prop where
  vol : d.vol = v
  pers : ∀ x w, d.pers x w → w = v x
  ops : ∀ p, d.ops p = none

theorem AtRest.fresh {E : Type} (v : Nat → E) : AtRest (Dev.fresh v) v := ⟨rfl, fun _ _ h => h, fun _ => rfl⟩

theorem AtRest.silent {E : Type} {d d' : Disk E} {v : Nat → E} (h : AtRest d v) (hr : Disk.Run d [] d') : AtRest d' v :=
  run_nil_ind hr rfl (fun d => AtRest d v) h fun d o x h => by rw [exec_none (h.ops o)]; exact h

theorem AtRest.lag {O E : Type} {a : O → Nat × Nat} {d : Disk E} {v : Nat → E} [DecidableEq O] (h : AtRest d v) :
    Lag a (fun _ => none) d (Dev.fresh v : Dev O E) :=
  ⟨h.vol, h.pers, fun p hp => absurd (h.ops p) hp, fun o _ => by rw [h.ops]; exact .none, fun _ _ _ h => by cases h⟩

theorem crash_run {E : Type} {d d' : Disk E} (h : Disk.Run d [.crash] d') :
    ∃ d1 v, Disk.Run d [] d1 ∧ d1.survives v ∧ AtRest d' v := by
  obtain ⟨d1, d2, h1, h2, h3⟩ := run_single h
  generalize he : [Ev.crash] = es at h2
  cases h2 with
  | issue => cases he
  | exec => cases he
  | respond => cases he
  | crash v hv => exact ⟨d1, v, h1, hv, (AtRest.fresh v).silent h3⟩

theorem resp_run {E : Type} {d d' : Disk E} {q id : Nat} {ok : Bool} {data : List (Option E)} (h : Disk.Run d [.resp q id ok data] d') :
    ∃ d1, Disk.Run d [] d1 ∧ Dev.mayComplete d1 (q, id) ok ∧ data = Dev.result d1 (q, id) ok ∧ Disk.Run (Dev.complete d1 (q, id) ok) [] d' := by
  obtain ⟨d1, d2, h1, h2, h3⟩ := run_single h
  generalize he : [Ev.resp q id ok data] = es at h2
  cases h2 with
  | issue => cases he
  | exec => cases he
  | crash => cases he
  | respond q' id' ok' hm => cases he; exact ⟨d1, h1, hm, rfl, h3⟩

theorem issue_run {E : Type} {d d' : Disk E} {q id : Nat} {r : Req E} (h : Disk.Run d [.issue q id r] d') :
    ∃ d1, Disk.Run d [] d1 ∧ d1.ops (q, id) = none ∧ Disk.Run (Disk.issue d1 (q, id) r) [] d' := by
  obtain ⟨d1, d2, h1, h2, h3⟩ := run_single h
  generalize he : [Ev.issue q id r] = es at h2
  cases h2 with
  | respond => cases he
  | exec => cases he
  | crash => cases he
  | issue q' id' r' hm => cases he; exact ⟨d1, h1, hm, h3⟩

/-- The requests a step hands over, with transfers before and after. -/
theorem _root_.Verif.Disk.Lag.handing {O E : Type} [DecidableEq O] {a : O → Nat × Nat} {box : O → Option (Bool × List (Option E))} {d d' : Disk E} {t : Dev O E}
    (ha : Function.Injective a) (h : Lag a box d t) {l : List (O × Req E)} (hl : l.length ≤ 1)
    (hr : Disk.Run d (l.map fun p => .issue (a p.1).1 (a p.1).2 p.2) d') :
    ∃ d1 t1, Execs t t1 ∧ Lag a box d1 t1 ∧ (HandedOk t1 l → ∃ t2, Execs (issueAll t1 l) t2 ∧ Lag a box d' t2) := by
  match l, hl with
  | [], _ =>
    refine ⟨d, t, .nil t, h, fun _ => ?_⟩
    exact h.silent ha hr
  | [p], _ =>
    obtain ⟨d1, h1, h2, h3⟩ := issue_run hr
    obtain ⟨t1, e1, l1⟩ := h.silent ha h1
    refine ⟨d1, t1, e1, l1, fun hk => ?_⟩
    rcases hk with hk | ⟨p', hk, hn⟩
    · cases hk
    · cases hk
      exact (l1.issue ha p.2 hn).silent ha h3

/-! ### Completions -/

theorem targetDone_wd (c : Cfg D) (s : Sys D) (k : Nat) (ok : Bool) (t m) :
    Lazy.targetDone (wd s t m) k ok true =
      (wd (Lazy.targetDone s k ok true).1
        (issueAll (t.complete (.fetch k) ok) (if ok && s.fe.states k = some .fetching then [(.fetch k, .flush)] else [])) m,
       (Lazy.targetDone s k ok true).2) ∧
    (Lazy.targetDone s k ok true).1.t =
      issueAll (s.t.complete (.fetch k) ok) (if ok && s.fe.states k = some .fetching then [(.fetch k, .flush)] else []) := by
  unfold Lazy.targetDone
  simp only [show (wd s t m).fe = s.fe from rfl, show (wd s t m).t = t from rfl]
  cases ok with
  | false =>
    simp only [Bool.false_eq_true, if_false, Bool.false_and]
    obtain ⟨h1, h2, h3, h4⟩ := fetchCompleted_wd (c := c) { s with t := s.t.complete (.fetch k) false } k false (t.complete (.fetch k) false) m
    exact ⟨h1, h2⟩
  | true =>
    simp only [if_true, Bool.true_and]
    generalize s.fe.states k = st
    cases st with
    | none => exact ⟨rfl, rfl⟩
    | some st =>
      cases st with
      | queued => exact ⟨rfl, rfl⟩
      | fetched => exact ⟨rfl, rfl⟩
      | fetching => exact ⟨rfl, rfl⟩
      | flushing =>
        obtain ⟨h1, h2, h3, h4⟩ := fetchCompleted_wd (c := c) { s with t := s.t.complete (.fetch k) true } k true (t.complete (.fetch k) true) m
        exact ⟨h1, h2⟩

theorem metaDone_wd (s : Sys D) (k : Nat) (ok : Bool) (t m) :
    Lazy.metaDone (wd s t m) k ok true =
      wd (Lazy.metaDone s k ok true) t
        (issueAll (m.complete k ok) (if ok && (s.fl.updates k).map Update.stage = some .writing then [(k, .flush)] else [])) ∧
    (Lazy.metaDone s k ok true).t = s.t := by
  unfold Lazy.metaDone
  simp only [show (wd s t m).fl = s.fl from rfl, show (wd s t m).m = m from rfl, show (wd s t m).sh = s.sh from rfl]
  generalize s.fl.updates k = u
  cases u with
  | none => cases ok <;> exact ⟨rfl, rfl⟩
  | some u =>
    obtain ⟨st, hd, mk, sec⟩ := u
    cases ok with
    | false => exact ⟨rfl, rfl⟩
    | true => cases st <;> exact ⟨rfl, rfl⟩

/-! ### Loading the metadata -/

structure Loading {E : Type} (n : Nat) (d : Disk E) (v : Nat → E) : Prop where
  vol : d.vol = v
  pers : ∀ x w, d.pers x w → w = v x
  op : ∃ got, d.ops loaderAddr = some (.read 0 n got) ∧ ∀ x, got x = none ∨ got x = some (v x)
  ops : ∀ p, p ≠ loaderAddr → d.ops p = none

theorem Loading.silent {E : Type} {n : Nat} {d d' : Disk E} {v : Nat → E} (h : Loading n d v) (hr : Disk.Run d [] d') : Loading n d' v :=
  run_nil_ind hr rfl (fun d => Loading n d v) h fun d o x h => by
    by_cases e : o = loaderAddr
    · subst e
      obtain ⟨got, h1, h2⟩ := h.op
      unfold Dev.exec
      rw [h1]
      simp only
      split
      · refine ⟨h.vol, h.pers, ⟨upd got x (some (d.vol x)), upd_same d.ops loaderAddr _, fun y => ?_⟩,
          fun p hp => (upd_ne d.ops _ hp).trans (h.ops p hp)⟩
        by_cases e : y = x
        · subst e; rw [upd_same, h.vol]; exact .inr rfl
        · rw [upd_ne _ _ e]; exact h2 y
      · exact h
    · rw [exec_none (h.ops o e)]; exact h

theorem AtRest.load {E : Type} {n : Nat} {d d' : Disk E} {v : Nat → E} (h : AtRest d v)
    (hr : Disk.Run d [.issue loaderAddr.1 loaderAddr.2 (.read 0 n)] d') : Loading n d' v := by
  obtain ⟨d1, h1, h2, h3⟩ := issue_run hr
  have := h.silent h1
  have h4 : Loading n (Disk.issue d1 (loaderAddr.1, loaderAddr.2) (.read 0 n)) v :=
    ⟨this.vol, this.pers, ⟨fun _ => none, upd_same d1.ops loaderAddr _, fun _ => .inl rfl⟩,
      fun p hp => (upd_ne d1.ops _ hp).trans (this.ops p)⟩
  exact h4.silent h3

theorem Loading.done {E : Type} {n : Nat} {d d' : Disk E} {v : Nat → E} (h : Loading n d v) {ok : Bool} {data : List (Option E)}
    (hr : Disk.Run d [.resp loaderAddr.1 loaderAddr.2 ok data] d') :
    AtRest d' v ∧ (ok = true → data = (List.range n).map fun i => some (v i)) := by
  obtain ⟨d1, h1, h2, h3, h4⟩ := resp_run hr
  have hl := h.silent h1
  obtain ⟨got, g1, g2⟩ := hl.op
  have hr' : AtRest (Dev.complete d1 (loaderAddr.1, loaderAddr.2) ok) v := by
    refine ⟨hl.vol, fun x w hx => hl.pers x w hx.1, fun p => ?_⟩
    by_cases e : p = loaderAddr
    · subst e; exact upd_same d1.ops loaderAddr _
    · exact (upd_ne d1.ops _ e).trans (hl.ops p e)
  refine ⟨hr'.silent h4, fun hk => ?_⟩
  · subst hk
    obtain ⟨op, o1, o2⟩ := h2
    rw [show (loaderAddr.1, loaderAddr.2) = loaderAddr from rfl] at o1 h3
    rw [g1, Option.some.injEq] at o1
    subst o1
    rw [h3]
    unfold Dev.result
    rw [g1]
    simp only [if_true]
    apply List.map_congr_left
    intro i hi
    have := o2 rfl (0 + i) ⟨by omega, by have := List.mem_range.1 hi; omega⟩
    rcases g2 (0 + i) with e | e
    · exact absurd e this
    · rw [e, Nat.zero_add]

theorem bytesOf_load (n : Nat) (v : Nat → Bytes) : bytesOf ((List.range n).map fun i => some (v i)) = devBytes n v := by
  unfold bytesOf devBytes
  rw [List.flatMap_map]
  rfl

/-! ### The whole run -/

/-- What relates the open run to a closed one, given the present states of the two devices. -/
def Rel (c : Cfg D) (hdrs : Bytes) (tv : Nat → D) (mv : Nat → Bytes) (ls : List (Lab D)) (dt : Disk D) (dm : Disk Bytes) : Host D → Prop
  | .down => ∃ hdrs' tv' mv', Bootable c hdrs' mv' ∧ AtRest dt tv' ∧ AtRest dm mv' ∧
      ∀ b, ∃ b0, Lazy.Run c (Sys.boot c hdrs tv mv b0) ls (Sys.boot c hdrs' tv' mv' b)
  | .loading => ∃ hdrs' tv' mv', Bootable c hdrs' mv' ∧ AtRest dt tv' ∧ Loading c.msec dm mv' ∧
      ∀ b, ∃ b0, Lazy.Run c (Sys.boot c hdrs tv mv b0) ls (Sys.boot c hdrs' tv' mv' b)
  | .up u => ∃ b0 t m, Lazy.Run c (Sys.boot c hdrs tv mv b0) ls (wd u.s t m) ∧ Lag addr u.tbox dt t ∧ Lag maddr u.mbox dm m ∧
      ∀ o, u.s.t.ops o = none ↔ t.ops o = none

theorem Execs.iff {O E : Type} [DecidableEq O] {s t t' : Dev O E} (h : Execs t t') (hs : ∀ o, s.ops o = none ↔ t.ops o = none) :
    ∀ o, s.ops o = none ↔ t'.ops o = none := fun o => (hs o).trans (h.ops o).symm

theorem HandedOk.length {O E : Type} {t : Dev O E} {l : List (O × Req E)} (h : HandedOk t l) : l.length ≤ 1 := by
  rcases h with rfl | ⟨p, rfl, -⟩ <;> simp

theorem rel_crash {hdrs : Bytes} {tv : Nat → D} {mv : Nat → Bytes} (hb : Bootable c hdrs mv) {ls : List (Lab D)} {s0 s : Sys D}
    {b0 : Nat → Nat → D} (hs0 : s0 = Sys.boot c hdrs tv mv b0)
    (hr : Lazy.Run c s0 ls s) {tv' : Nat → D} {mv' : Nat → Bytes} (h1 : s.t.survives tv') (h2 : s.m.survives mv') :
    ∃ hdrs', Bootable c hdrs' mv' ∧ ∀ b, Lazy.Run c s0 (ls ++ [.ev .crash]) (Sys.boot c hdrs' tv' mv' b) := by
  subst hs0
  obtain ⟨⟨⟨h', mv2, hb2, hm⟩, hf⟩, -⟩ := (Sound.boot (tv := tv) (b0 := b0) hb).run hr
  obtain ⟨md, g1, g2, g3⟩ := reload hb2 hm h2
  exact ⟨md.headers, g2, fun b => hr.crash b h1 h2 g1⟩

theorem AtRest.survives {E : Type} {d : Disk E} {v w : Nat → E} (h : AtRest d v) (hs : d.survives w) : w = v :=
  funext fun x => h.pers x _ (hs x)

theorem fresh_survives {O E : Type} [DecidableEq O] (v : Nat → E) : (Dev.fresh v : Dev O E).survives v := fun _ => rfl

theorem rel_step {hdrs : Bytes} {tv : Nat → D} {mv : Nat → Bytes} (hb : Bootable c hdrs mv) {ls ls' : List (Lab D)} {h h' : Host D}
    {et' : List (Ev D)} {em' : List (Ev Bytes)} {dt dt' : Disk D} {dm dm' : Disk Bytes}
    (hst : OStep c h ls' et' em' h') (ht : Disk.Run dt et' dt') (hm : Disk.Run dm em' dm') (hr : Rel c hdrs tv mv ls dt dm h) :
    Rel c hdrs tv mv (ls ++ ls') dt' dm' h' := by
  cases hst with
  | start =>
    obtain ⟨hd, tv', mv', r1, r2, r3, r4⟩ := hr
    rw [List.append_nil]
    exact ⟨hd, tv', mv', r1, r2.silent ht, r3.load hm, r4⟩
  | loaded data md tv0 mv0 b0 hld =>
    obtain ⟨hd, tv', mv', r1, r2, r3, r4⟩ := hr
    rw [List.append_nil]
    obtain ⟨g1, g2⟩ := r3.done hm
    obtain ⟨md', l1, l2⟩ := r1.load
    rw [g2 rfl, bytesOf_load, l1, Except.ok.injEq] at hld
    subst hld
    subst l2
    obtain ⟨b1, r5⟩ := r4 b0
    exact ⟨b1, Dev.fresh tv', Dev.fresh mv', r5, (r2.silent ht).lag, g1.lag, fun _ => Iff.rfl⟩
  | loadFailed ok data hld =>
    obtain ⟨hd, tv', mv', r1, r2, r3, r4⟩ := hr
    rw [List.append_nil]
    exact ⟨hd, tv', mv', r1, r2.silent ht, (r3.done hm).1, r4⟩
  | call u a _ s' ha hstep =>
    obtain ⟨b0, t, m, r1, r2, r3, r4⟩ := hr
    have hsnd := (Sound.boot (tv := tv) (b0 := b0) hb).run r1
    obtain ⟨c1, c2, c3⟩ := call_wd ha hstep (m := m) r4
    obtain ⟨d1, t1, e1, l1, k1⟩ := r2.handing addr_inj (handed_ok hsnd ha c1).length ht
    obtain ⟨d2, m1, e2, l2, k2⟩ := r3.handing maddr_inj (handedMeta_ok hsnd c1).length hm
    have r1' := run_execs_m (run_execs_t r1 e1) e2
    have hsnd' := (Sound.boot (tv := tv) (b0 := b0) hb).run r1'
    obtain ⟨c1', c2', c3'⟩ := call_wd ha hstep (m := m1) (e1.iff r4)
    obtain ⟨t2, e3, l3⟩ := k1 (handed_ok hsnd' ha c1')
    obtain ⟨m2, e4, l4⟩ := k2 (handedMeta_ok hsnd' c1')
    refine ⟨b0, t2, m2, run_execs_m (run_execs_t (r1'.step c1') e3) e4, l3, l4, ?_⟩
    rw [c2']
    exact e3.iff (issueAll_ops _ (e1.iff r4))
  | deliver u o ok data hbx =>
    obtain ⟨b0, t, m, r1, r2, r3, r4⟩ := hr
    rw [List.append_nil]
    obtain ⟨d1, h1, h2, h3, h4⟩ := resp_run ht
    obtain ⟨t1, e1, l1⟩ := r2.silent addr_inj h1
    obtain ⟨o', ho, -, l2⟩ := l1.respond addr_inj h2
    obtain rfl := addr_inj (show addr o = addr o' from ho)
    rw [← h3] at l2
    obtain ⟨t2, e2, l3⟩ := l2.silent addr_inj h4
    obtain ⟨m1, e3, l4⟩ := r3.silent maddr_inj hm
    exact ⟨b0, t2, m1, run_execs_m (run_execs_t (run_execs_t r1 e1) e2) e3, l3, l4, e2.iff (e1.iff r4)⟩
  | deliverMeta u k ok data hbx =>
    obtain ⟨b0, t, m, r1, r2, r3, r4⟩ := hr
    rw [List.append_nil]
    obtain ⟨d1, h1, h2, h3, h4⟩ := resp_run hm
    obtain ⟨t1, e1, l1⟩ := r3.silent maddr_inj h1
    obtain ⟨o', ho, -, l2⟩ := l1.respond maddr_inj h2
    obtain rfl := maddr_inj (show maddr k = maddr o' from ho)
    rw [← h3] at l2
    obtain ⟨t2, e2, l3⟩ := l2.silent maddr_inj h4
    obtain ⟨m1, e3, l4⟩ := r2.silent addr_inj ht
    exact ⟨b0, m1, t2, run_execs_t (run_execs_m (run_execs_m r1 e1) e2) e3, l4, l3, e3.iff r4⟩
  | handleGuest u q id ok data hbx =>
    obtain ⟨b0, t, m, r1, r2, r3, r4⟩ := hr
    obtain ⟨h1, h2, l1⟩ := r2.handle addr_inj hbx
    obtain ⟨t1, e1, l2⟩ := l1.silent addr_inj ht
    obtain ⟨m1, e2, l3⟩ := r3.silent maddr_inj hm
    have := r1.step (Step.baseDone (wd u.s t m) q id ok h1)
    rw [show (wd u.s t m).t = t from rfl, h2] at this
    exact ⟨b0, t1, m1, run_execs_m (run_execs_t this e1) e2, l2, l3, e1.iff (complete_ops r4 _ _)⟩
  | handleFetch u k ok data hbx =>
    obtain ⟨b0, t, m, r1, r2, r3, r4⟩ := hr
    have hw := fun t => targetDone_wd c u.s k ok t m
    obtain ⟨m1, e4, l4⟩ := r3.silent maddr_inj hm
    split at ht
    · rename_i hc
      simp only [if_pos hc] at hw
      obtain ⟨d1, h1, h2, h3⟩ := issue_run ht
      obtain ⟨t1, e1, l1⟩ := r2.silent addr_inj h1
      obtain ⟨g1, g2, l2⟩ := l1.handle addr_inj hbx
      obtain ⟨t2, e2, l3⟩ := (l2.issue addr_inj .flush (upd_same t1.ops (.fetch k) none)).silent addr_inj h3
      obtain ⟨w1, w2⟩ := hw t1
      have := (run_execs_t r1 e1).step (Step.targetDone (wd u.s t1 m) k ok true g1)
      rw [w1] at this
      refine ⟨b0, t2, m1, run_execs_m (run_execs_t this e2) e4, l3, l4, e2.iff ?_⟩
      rw [w2]
      exact issueAll_ops [(Owner.fetch k, Req.flush)] (complete_ops (e1.iff r4) (.fetch k) ok)
    · rename_i hc
      simp only [if_neg hc] at hw
      obtain ⟨g1, g2, l2⟩ := r2.handle addr_inj hbx
      obtain ⟨t2, e2, l3⟩ := l2.silent addr_inj ht
      obtain ⟨w1, w2⟩ := hw t
      have := r1.step (Step.targetDone (wd u.s t m) k ok true g1)
      rw [w1] at this
      refine ⟨b0, t2, m1, run_execs_m (run_execs_t this e2) e4, l3, l4, e2.iff ?_⟩
      rw [w2]
      exact complete_ops r4 (.fetch k) ok
  | handleMeta u k ok data hbx =>
    obtain ⟨b0, t, m, r1, r2, r3, r4⟩ := hr
    have hw := fun t m => metaDone_wd u.s k ok t m
    obtain ⟨t1, e4, l4⟩ := r2.silent addr_inj ht
    split at hm
    · rename_i hc
      simp only [if_pos hc] at hw
      obtain ⟨d1, h1, h2, h3⟩ := issue_run hm
      obtain ⟨m1, e1, l1⟩ := r3.silent maddr_inj h1
      obtain ⟨g1, g2, l2⟩ := l1.handle maddr_inj hbx
      obtain ⟨m2, e2, l3⟩ := (l2.issue maddr_inj .flush (upd_same m1.ops k none)).silent maddr_inj h3
      obtain ⟨w1, w2⟩ := hw t m1
      have := (run_execs_m r1 e1).step (Step.metaDone (wd u.s t m1) k ok true g1)
      rw [w1] at this
      refine ⟨b0, t1, m2, run_execs_m (run_execs_t this e4) e2, l4, l3, e4.iff ?_⟩
      rw [w2]
      exact r4
    · rename_i hc
      simp only [if_neg hc] at hw
      obtain ⟨g1, g2, l2⟩ := r3.handle maddr_inj hbx
      obtain ⟨m2, e2, l3⟩ := l2.silent maddr_inj hm
      obtain ⟨w1, w2⟩ := hw t m
      have := r1.step (Step.metaDone (wd u.s t m) k ok true g1)
      rw [w1] at this
      refine ⟨b0, t1, m2, run_execs_m (run_execs_t this e4) e2, l4, l3, e4.iff ?_⟩
      rw [w2]
      exact r4
  | crash =>
    obtain ⟨dt1, v, c1, c2, c3⟩ := crash_run ht
    obtain ⟨dm1, w, c4, c5, c6⟩ := crash_run hm
    cases h with
    | down =>
      obtain ⟨hd, tv', mv', r1, r2, r3, r4⟩ := hr
      obtain rfl := (r2.silent c1).survives c2
      obtain rfl := (r3.silent c4).survives c5
      obtain ⟨md', l1, rfl⟩ := r1.load
      refine ⟨md'.headers, v, w, r1, c3, c6, fun b => ?_⟩
      obtain ⟨b0, r5⟩ := r4 b
      exact ⟨b0, r5.crash b (fresh_survives v) (fresh_survives w) l1⟩
    | loading =>
      obtain ⟨hd, tv', mv', r1, r2, r3, r4⟩ := hr
      obtain rfl := (r2.silent c1).survives c2
      have r6 := r3.silent c4
      obtain rfl : w = mv' := funext fun x => r6.pers x _ (c5 x)
      obtain ⟨md', l1, rfl⟩ := r1.load
      refine ⟨md'.headers, v, w, r1, c3, c6, fun b => ?_⟩
      obtain ⟨b0, r5⟩ := r4 b
      exact ⟨b0, r5.crash b (fresh_survives v) (fresh_survives w) l1⟩
    | up u =>
      obtain ⟨b0, t, m, r1, r2, r3, r4⟩ := hr
      obtain ⟨t1, e1, l1⟩ := r2.silent addr_inj c1
      obtain ⟨m1, e2, l2⟩ := r3.silent maddr_inj c4
      obtain ⟨hd, g1, g2⟩ := rel_crash hb rfl (run_execs_m (run_execs_t r1 e1) e2) (l1.survives c2) (l2.survives c5)
      exact ⟨hd, v, w, g1, c3, c6, fun b => ⟨b0, g2 b⟩⟩

/-- **The open run over plain disks is a run of the closed model**, up to where the devices stand. -/
theorem open_closed {hdrs : Bytes} {tv : Nat → D} {mv : Nat → Bytes} (hb : Bootable c hdrs mv) {ls : List (Lab D)}
    {et : List (Ev D)} {em : List (Ev Bytes)} {h : Host D} (hr : ORun c ls et em h) :
    ∀ {dt : Disk D} {dm : Disk Bytes}, Disk.Run (Dev.fresh tv) et dt → Disk.Run (Dev.fresh mv) em dm → Rel c hdrs tv mv ls dt dm h := by
  induction hr with
  | nil =>
    intro dt dm ht hm
    exact ⟨hdrs, tv, mv, hb, (AtRest.fresh tv).silent ht, (AtRest.fresh mv).silent hm, fun b => ⟨b, .nil _⟩⟩
  | step hr hst ih =>
    intro dt dm ht hm
    obtain ⟨dt1, t1, t2⟩ := ht.split _ _ rfl
    obtain ⟨dm1, m1, m2⟩ := hm.split _ _ rfl
    exact rel_step hb hst t2 m2 (ih t1 m1)

theorem Rel.run {hdrs : Bytes} {tv : Nat → D} {mv : Nat → Bytes} {ls : List (Lab D)} {dt : Disk D} {dm : Disk Bytes} {h : Host D}
    (hr : Rel c hdrs tv mv ls dt dm h) : ∃ b0 s, Lazy.Run c (Sys.boot c hdrs tv mv b0) ls s := by
  cases h with
  | down =>
    obtain ⟨hd, tv', mv', r1, r2, r3, r4⟩ := hr
    obtain ⟨b0, r⟩ := r4 fun _ _ => tv 0
    exact ⟨b0, _, r⟩
  | loading =>
    obtain ⟨hd, tv', mv', r1, r2, r3, r4⟩ := hr
    obtain ⟨b0, r⟩ := r4 fun _ _ => tv 0
    exact ⟨b0, _, r⟩
  | up u =>
    obtain ⟨b0, t, m, r, -⟩ := hr
    exact ⟨b0, _, r⟩

end Verif.Stack
