import Verif.Model.UblkFront
import Verif.Props.Ublk
import Verif.Proof.Front
import Verif.Proof.Early

/-! # The ublk queues over a disk -/

set_option maxRecDepth 8000

namespace Verif.Ublk
open Verif Verif.Metadata Verif.Disk Verif.Vhost

/-- Shape of a call. -/
def shape : DevReq → Disk.Kind
  | .read off cnt => .read off cnt
  | .write off cnt _ => .write off cnt
  | .flush => .flush

/-- The handler's record of a request. -/
def rqOf (a : Ask) (tag : Nat) : Rq := ⟨Op.ofRaw a.flags, a.off, a.cnt, tag, a.cnt * 512⟩

structure QSim (maxIo : Nat) (b : Ub) (ask : Nat → Ask) (tk : Nat → Option Disk.Kind) : Prop where
  inv : ∃ es, Inv maxIo b es
  out : ∀ tag rq, b.out tag = some rq → rq = rqOf (ask tag) tag
  buf : ∀ rq ∈ b.pending, b.bufs rq.tag = (ask rq.tag).data
  chan : ∀ id dq, (id, dq) ∈ b.chan → (ask id).wanted maxIo = some dq.toReq
  kind : ∀ id kd, tk id = some kd → ∃ dq, (id, dq) ∈ b.chan ∧ shape dq = kd

/-- Requests the handler has not passed on. -/
def waiting (maxIo : Nat) (f : KFront) (p : Nat × Nat) : Option (Req Bytes) :=
  if (f.qs p.1).pending.any (fun rq => rq.tag == p.2) then (f.asked p).wanted maxIo else none

structure Sim (maxIo : Nat) (f : KFront) (d u t : Disk Bytes) : Prop where
  lag : Lag id f.box d t
  early : Early (waiting maxIo f) t u
  qs : ∀ q, QSim maxIo (f.qs q) (fun tag => f.asked (q, tag)) (fun id => t.kinds (q, id))

variable {maxIo depth : Nat} {f f' : KFront} {d d' u t : Disk Bytes}

theorem Sim.silent (h : Sim maxIo f d u t) (hr : Disk.Run d [] d') : ∃ u' t', Disk.Run u [] u' ∧ Sim maxIo f d' u' t' := by
  refine Stack.run_nil_ind hr rfl (fun d' => ∃ u' t', Disk.Run u [] u' ∧ Sim maxIo f d' u' t') ⟨u, t, .nil _, h⟩ ?_
  rintro d o x ⟨u', t', h1, h2⟩
  rcases h2.lag.exec (fun _ _ e => e) o x with h3 | ⟨o', ho', h3⟩
  · exact ⟨u', t', h1, h3, h2.early, h2.qs⟩
  · have hq : ∀ q, QSim maxIo (f.qs q) (fun tag => f.asked (q, tag)) (fun id => (t'.exec o' x).kinds (q, id)) := by
      intro q; simp only [kinds_exec]; exact h2.qs q
    rcases h2.early.exec o' x with h4 | h4
    · exact ⟨u', _, h1, h3, h4, hq⟩
    · exact ⟨_, _, by have := h1.snoc (Disk.Step.exec u' o' x); simpa using this, h3, h4, hq⟩

theorem Sim.init {v : Nat → Bytes} (hd : Stack.AtRest d v) : Sim maxIo (KFront.init maxIo) d (Dev.fresh v) (Dev.fresh v) := by
  have hw : waiting maxIo (KFront.init maxIo) = fun _ => none := by funext p; simp [waiting, KFront.init, Ub.init]
  refine ⟨hd.lag, by rw [hw]; exact Early.fresh v, fun q => ⟨⟨[], inv_init maxIo⟩, ?_, ?_, ?_, ?_⟩⟩
  · intro tag rq h; cases h
  · intro rq h; cases h
  · intro id dq h; cases h
  · intro id kd h; cases h

theorem pend_iff {b : Ub} {tag : Nat} : b.pending.any (fun rq => rq.tag == tag) = true ↔ ∃ rq ∈ b.pending, rq.tag = tag := by
  simp

/-- A request the user's disk knows is one the kernel waits for. -/
theorem Sim.known (h : Sim maxIo f d u t) {q tag : Nat} (hu : u.ops (q, tag) ≠ none) : (f.qs q).out tag ≠ none := by
  obtain ⟨⟨es, hi⟩, -, -, -, hk⟩ := h.qs q
  cases hw : waiting maxIo f (q, tag) with
  | some r =>
    unfold waiting at hw
    split at hw
    · rename_i hp
      obtain ⟨rq, h1, rfl⟩ := pend_iff.1 hp
      rw [hi.outP rq h1]; simp
    · cases hw
  | none =>
    have hl := h.early.live _ hw
    cases ht : t.ops (q, tag) with
    | none =>
      rw [ht] at hl
      generalize hx : u.ops (q, tag) = x at hl hu
      cases hl; exact absurd rfl hu
    | some op =>
      obtain ⟨dq, h1, -⟩ := hk tag op.kind (kinds_of_ops ht)
      obtain ⟨rq, h2, -⟩ := hi.chan1 _ _ h1
      rw [(hi.outI _ _ h2).1]; simp

/-- One queue changes. -/
theorem qs_set {asked : Nat × Nat → Ask} {t' : Disk Bytes} {q : Nat} {b : Ub} (h : ∀ q, QSim maxIo (f.qs q) (fun tag => f.asked (q, tag)) (fun id => t.kinds (q, id)))
    (ha : ∀ q' tag, q' ≠ q → asked (q', tag) = f.asked (q', tag)) (ht : ∀ q' id, q' ≠ q → t'.kinds (q', id) = t.kinds (q', id))
    (hb : QSim maxIo b (fun tag => asked (q, tag)) (fun id => t'.kinds (q, id))) :
    ∀ q', QSim maxIo (upd f.qs q b q') (fun tag => asked (q', tag)) (fun id => t'.kinds (q', id)) := by
  intro q'
  by_cases e : q' = q
  · subst e; rw [upd_same]; exact hb
  · rw [upd_ne _ _ e]
    have e1 : (fun tag => asked (q', tag)) = fun tag => f.asked (q', tag) := funext fun tag => ha q' tag e
    have e2 : (fun id => t'.kinds (q', id)) = fun id => t.kinds (q', id) := funext fun id => ht q' id e
    rw [e1, e2]; exact h q'

theorem waiting_set {q : Nat} {b : Ub} {asked : Nat × Nat → Ask} {box} {p : Nat × Nat} (w : Option (Req Bytes))
    (hne : ∀ q' tag, (q', tag) ≠ p → asked (q', tag) = f.asked (q', tag))
    (hq : ∀ tag, (q, tag) ≠ p → b.pending.any (fun rq => rq.tag == tag) = (f.qs q).pending.any (fun rq => rq.tag == tag)) (hpq : p.1 = q)
    (hw : (if b.pending.any (fun rq => rq.tag == p.2) then (asked p).wanted maxIo else none) = w) :
    waiting maxIo ⟨upd f.qs q b, box, asked⟩ = upd (waiting maxIo f) p w := by
  funext p'
  obtain ⟨q', tag⟩ := p'
  by_cases e : (q', tag) = p
  · subst e
    simp only at hpq hw
    subst hpq
    rw [upd_same, ← hw]; simp [waiting]
  · rw [upd_ne _ _ e]
    simp only [waiting, hne q' tag e]
    by_cases e2 : q' = q
    · subst e2; rw [upd_same, hq tag e]
    · rw [upd_ne _ _ e2]

theorem waiting_same {q : Nat} {b : Ub} {box} (hq : ∀ tag, b.pending.any (fun rq => rq.tag == tag) = (f.qs q).pending.any (fun rq => rq.tag == tag)) :
    waiting maxIo ⟨upd f.qs q b, box, f.asked⟩ = waiting maxIo f := by
  funext p'
  obtain ⟨q', tag⟩ := p'
  simp only [waiting]
  by_cases e2 : q' = q
  · subst e2; rw [upd_same, hq tag]
  · rw [upd_ne _ _ e2]

theorem Sim.early' {g : KFront} {k : Nat × Nat → Option (Req Bytes)} (h : Early k t u) (e : waiting maxIo g = k) : Early (waiting maxIo g) t u := e ▸ h

theorem upd_noop {k : Nat × Nat → Option (Req Bytes)} {p : Nat × Nat} (h : k p = none) : upd k p none = k := by
  funext p'
  by_cases e : p' = p
  · rw [e, upd_same, h]
  · rw [upd_ne _ _ e]

theorem ofRaw_read {k : Nat} : Op.ofRaw k = .read ↔ k % 256 = 0 := (asked_ofRaw k).1
theorem ofRaw_write {k : Nat} : Op.ofRaw k = .write ↔ k % 256 = 1 := (asked_ofRaw k).2.1
theorem ofRaw_flush {k : Nat} : Op.ofRaw k = .flush ↔ k % 256 = 2 := (asked_ofRaw k).2.2

/-- What the handler asks of the channel is what the kernel asked for. -/
theorem devReq_wanted {b : Ub} {a : Ask} {tag : Nat} (h1 : (b.back tag).length = maxIo) (h2 : (b.bufs tag).length = maxIo) (h3 : a.cnt * 512 ≤ maxIo)
    (h4 : b.bufs tag = a.data) : (devReq b (rqOf a tag)).map DevReq.toReq = a.wanted maxIo := by
  unfold devReq Ask.wanted
  have hb : (rqOf a tag).bytes = a.cnt * 512 := rfl
  have ht : (rqOf a tag).tag = tag := rfl
  have hn : ¬ (a.cnt * 512 > maxIo ∨ a.cnt * 512 > maxIo) := by omega
  have hn2 : ¬ (a.cnt * 512 > maxIo) := by omega
  simp only [hb, ht, h1, h2, hn, hn2, if_false]
  cases hop : (rqOf a tag).op with
  | read =>
    have := ofRaw_read.1 hop
    simp only [this, if_true]; rfl
  | write =>
    have := ofRaw_write.1 hop
    simp only [this, if_true, h4]; rfl
  | flush =>
    have := ofRaw_flush.1 hop
    simp only [this, if_true]; rfl
  | unsupported =>
    have n0 : a.flags % 256 ≠ 0 := fun e => by rw [ofRaw_read.2 e |> (show (rqOf a tag).op = _ from ·)] at hop; cases hop
    have n1 : a.flags % 256 ≠ 1 := fun e => by rw [ofRaw_write.2 e |> (show (rqOf a tag).op = _ from ·)] at hop; cases hop
    have n2 : a.flags % 256 ≠ 2 := fun e => by rw [ofRaw_flush.2 e |> (show (rqOf a tag).op = _ from ·)] at hop; cases hop
    simp only [n0, n1, n2, if_false]; rfl

theorem kinds_issue (t : Disk Bytes) (o o' : Nat × Nat) (dq : DevReq) :
    (Dev.issue t o dq.toReq).kinds o' = if o' = o then some (shape dq) else t.kinds o' := by
  cases dq with
  | read => exact kinds_issueRead _ _ _ _ _
  | write => exact kinds_issueWrite _ _ _ _ _ _
  | flush => exact kinds_issueFlush _ _ _

theorem step_sim {ls : List KLab} {es : List (Ev Bytes)} (h : KStep maxIo depth f ls es f') (hr : Disk.Run d es d') (hS : Sim maxIo f d u t) :
    ∃ u' t', Disk.Run u (ls.flatMap (KLab.view maxIo)) u' ∧ Sim maxIo f' d' u' t' := by
  cases h with
  | crash =>
    obtain ⟨d1, v, h1, h2, h3⟩ := Stack.crash_run hr
    obtain ⟨u', t', h4, h5⟩ := hS.silent h1
    exact ⟨Dev.fresh v, Dev.fresh v, h4.trans (Disk.Run.one (.crash u' v (h5.early.survives (h5.lag.survives h2)))), Sim.init h3⟩
  | deliver q id ok data hb =>
    obtain ⟨d1, h1, h2, h3, h4⟩ := Stack.resp_run hr
    obtain ⟨u1, t1, h5, h6⟩ := hS.silent h1
    obtain ⟨o, ho, -, h7⟩ := h6.lag.respond (fun _ _ e => e) h2
    have ho' : o = (q, id) := ho.symm
    subst ho'
    rw [← h3] at h7
    have h8 : Sim maxIo { f with box := upd f.box (q, id) (some (ok, data)) } (Dev.complete d1 (q, id) ok) u1 t1 := ⟨h7, h6.early, h6.qs⟩
    obtain ⟨u2, t2, h9, h10⟩ := h8.silent h4
    exact ⟨u2, t2, h5.trans h9, h10⟩
  | submit q hl hp =>
    obtain ⟨u', t', h1, h2⟩ := hS.silent hr
    refine ⟨u', t', h1, h2.lag, Sim.early' h2.early (waiting_same fun _ => rfl), ?_⟩
    obtain ⟨⟨es, hi⟩, a, b, c, e⟩ := h2.qs q
    exact qs_set h2.qs (fun _ _ _ => rfl) (fun _ _ _ => rfl)
      ⟨⟨_, inv_step (depth := depth) hi (.submit _ hl hp)⟩, a, b, c, e⟩
  | exit q hl hp hq hc =>
    obtain ⟨u', t', h1, h2⟩ := hS.silent hr
    refine ⟨u', t', h1, h2.lag, Sim.early' h2.early (waiting_same fun _ => rfl), ?_⟩
    obtain ⟨⟨es, hi⟩, a, b, c, e⟩ := h2.qs q
    exact qs_set h2.qs (fun _ _ _ => rfl) (fun _ _ _ => rfl)
      ⟨⟨_, inv_step (depth := depth) hi (.exit _ hl hp hq hc)⟩, a, b, c, e⟩
  | arrive q a tag last hl ho ht hd =>
    have hcalls : kcalls q (handle maxIo (f.qs q) a.flags a.off a.cnt tag last a.data).2 = [] := by
      unfold handle
      simp only []
      split <;> rfl
    rw [hcalls] at hr
    obtain ⟨u', t', h1, h2⟩ := hS.silent hr
    obtain ⟨⟨es, hi⟩, qa, qb, qc, qe⟩ := h2.qs q
    have hI := inv_step hi (Step.arrive (depth := depth) (fails := false) _ a.flags a.off a.cnt tag last a.data hl ho ht hd)
    have hnp : ∀ rq ∈ (f.qs q).pending, rq.tag ≠ tag := fun rq hr e => by
      have := hi.outP rq hr; rw [e, ho] at this; cases this
    have hnc : ∀ dq, (tag, dq) ∉ (f.qs q).chan := by
      intro dq hm
      obtain ⟨rq, h3, -⟩ := hi.chan1 _ _ hm
      rw [(hi.outI _ _ h3).1] at ho; cases ho
    have hask : ∀ id, id ≠ tag → upd f.asked (q, tag) a (q, id) = f.asked (q, id) := fun id e => upd_ne _ _ (by simpa using e)
    have hwn : waiting maxIo f (q, tag) = none := by
      unfold waiting
      rw [if_neg]
      intro hp
      obtain ⟨rq, h3, h4⟩ := pend_iff.1 hp
      exact hnp rq h3 h4
    have huo : u'.ops (q, tag) = none := by
      cases hu : u'.ops (q, tag) with
      | none => rfl
      | some op => exact absurd ho (h2.known (by rw [hu]; simp))
    have hne : ∀ q' tag', (q', tag') ≠ (q, tag) → upd f.asked (q, tag) a (q', tag') = f.asked (q', tag') := fun q' tag' e => upd_ne _ _ e
    by_cases hbig : a.cnt * 512 > maxIo
    · have hw : a.wanted maxIo = none := by unfold Ask.wanted; rw [if_pos hbig]
      have hout : upd (upd (f.qs q).out tag (some ⟨Op.ofRaw a.flags, a.off, a.cnt, tag, a.cnt * 512⟩)) tag none = (f.qs q).out := by
        funext j
        by_cases e : j = tag
        · rw [e, upd_same, ho]
        · rw [upd_ne _ _ e, upd_ne _ _ e]
      have hh : handle maxIo (f.qs q) a.flags a.off a.cnt tag last a.data =
          ({ f.qs q with bufs := upd (f.qs q).bufs tag a.data }, [.arrive a.flags ⟨Op.ofRaw a.flags, a.off, a.cnt, tag, a.cnt * 512⟩,
            .complete tag none a.data]) := by
        unfold handle
        simp only [if_pos hbig, finish, hout, upd_same]
      rw [hh] at hI
      simp only [hh]
      refine ⟨u', t', ?_, h2.lag, ?_, ?_⟩
      · simpa [comps, KLab.view, hw] using h1
      · refine Sim.early' h2.early ?_
        refine Eq.trans (waiting_set (p := (q, tag)) none hne ?_ rfl ?_) (upd_noop hwn)
        · exact fun _ _ => rfl
        rw [upd_same, hw, ite_self]
      · refine qs_set h2.qs (fun q' tag' e => hne q' tag' (by simp [e])) (fun _ _ _ => rfl) ⟨⟨_, hI⟩, ?_, ?_, ?_, qe⟩
        · intro tg rq hrq
          have : tg ≠ tag := fun e => by rw [e, ho] at hrq; cases hrq
          simp only [hask tg this]; exact qa tg rq hrq
        · intro rq hrq
          simp only [upd_ne _ _ (hnp rq hrq), hask _ (hnp rq hrq)]; exact qb rq hrq
        · intro id dq hm
          have : id ≠ tag := fun e => hnc dq (e ▸ hm)
          simp only [hask id this]; exact qc id dq hm
    · have hh : handle maxIo (f.qs q) a.flags a.off a.cnt tag last a.data =
          ({ f.qs q with bufs := upd (f.qs q).bufs tag a.data, out := upd (f.qs q).out tag (some (rqOf a tag)), pending := (f.qs q).pending ++ [rqOf a tag], looping := last }, [.arrive a.flags (rqOf a tag)]) := by
        unfold handle
        simp only [if_neg hbig]; rfl
      rw [hh] at hI
      simp only [hh]
      have hpend : ∀ tag', ((f.qs q).pending ++ [rqOf a tag]).any (fun rq => rq.tag == tag') =
          ((f.qs q).pending.any (fun rq => rq.tag == tag') || tag == tag') := by
        intro tag'; simp [rqOf]
      have hwt : waiting maxIo ⟨upd f.qs q { f.qs q with bufs := upd (f.qs q).bufs tag a.data, out := upd (f.qs q).out tag (some (rqOf a tag)), pending := (f.qs q).pending ++ [rqOf a tag], looping := last }, f.box, upd f.asked (q, tag) a⟩ =
          upd (waiting maxIo f) (q, tag) (a.wanted maxIo) := by
        refine waiting_set _ hne (fun tag' e => ?_) rfl ?_
        · simp only [hpend]
          have : (tag == tag') = false := by simp; exact fun e' => e (by rw [e'])
          rw [this, Bool.or_false]
        · simp only [hpend, upd_same]; simp
      have hQ : ∀ q', QSim maxIo (upd f.qs q { f.qs q with bufs := upd (f.qs q).bufs tag a.data, out := upd (f.qs q).out tag (some (rqOf a tag)), pending := (f.qs q).pending ++ [rqOf a tag], looping := last } q') (fun tg => upd f.asked (q, tag) a (q', tg)) (fun id => t'.kinds (q', id)) := by
        refine qs_set h2.qs (fun q' tag' e => hne q' tag' (by simp [e])) (fun _ _ _ => rfl) ⟨⟨_, hI⟩, ?_, ?_, ?_, qe⟩
        · intro tg rq hrq
          simp only at hrq
          by_cases e : tg = tag
          · subst e
            rw [upd_same, Option.some.injEq] at hrq
            simp only [upd_same]; exact hrq.symm
          · rw [upd_ne _ _ e] at hrq
            simp only [hask tg e]; exact qa tg rq hrq
        · intro rq hrq
          rcases List.mem_append.1 hrq with hrq | hrq
          · simp only [upd_ne _ _ (hnp rq hrq), hask _ (hnp rq hrq)]; exact qb rq hrq
          · rw [List.mem_singleton] at hrq; subst hrq
            simp [rqOf]
        · intro id dq hm
          have : id ≠ tag := fun e => hnc dq (e ▸ hm)
          simp only [hask id this]; exact qc id dq hm
      cases hw : a.wanted maxIo with
      | none =>
        refine ⟨u', t', by simpa [comps, KLab.view, hw] using h1, h2.lag, ?_, hQ⟩
        rw [hwt, hw]
        rw [upd_noop hwn]; exact h2.early
      | some r =>
        refine ⟨Dev.issue u' (q, tag) r, t', ?_, h2.lag, ?_, hQ⟩
        · have e : Dev.issue u' (q, tag) r = Disk.issue u' (q, tag) r := by cases r <;> rfl
          rw [e]
          have := h1.trans (Disk.Run.one (.issue u' q tag r huo))
          simpa [comps, KLab.view, hw] using this
        · rw [hwt, hw]; exact h2.early.ask r hwn huo
  | enqueue q rq rest hl hp =>
    obtain ⟨⟨es0, hi0⟩, qa0, qb0, -, -⟩ := hS.qs q
    have hmem : rq ∈ (f.qs q).pending := by rw [hp]; exact .head _
    have hout := hi0.outP rq hmem
    have hrq := qa0 _ _ hout
    have hbuf := qb0 rq hmem
    generalize hag : f.asked (q, rq.tag) = a at hrq hbuf
    obtain ⟨tag, htag⟩ : ∃ tag, rq.tag = tag := ⟨_, rfl⟩
    rw [htag] at hrq hbuf hag hout
    subst hrq
    have hsz : a.cnt * 512 ≤ maxIo := (hi0.size _ _ hout).2.1
    have hdw := devReq_wanted (b := { f.qs q with pending := rest }) (a := a) (tag := tag) (hi0.back tag) (hi0.bufs tag) hsz hbuf
    have hnd := hi0.nodup
    rw [hp, List.map_cons, List.nodup_cons] at hnd
    have hrest : ∀ r ∈ rest, r ∈ (f.qs q).pending ∧ r.tag ≠ tag := fun r hr =>
      ⟨by rw [hp]; exact .tail _ hr, fun e => hnd.1 (List.mem_map.mpr ⟨r, hr, e⟩)⟩
    have hnot : rest.any (fun rq => rq.tag == tag) = false := by
      rw [List.any_eq_false]; intro r hr; simpa using (hrest r hr).2
    have hoth : ∀ tag', (q, tag') ≠ (q, tag) → rest.any (fun rq => rq.tag == tag') = (f.qs q).pending.any (fun rq => rq.tag == tag') := by
      intro tag' e
      rw [hp, List.any_cons]
      have : ((rqOf a tag).tag == tag') = false := by simp [rqOf]; exact fun e' => e (by rw [e'])
      rw [this, Bool.false_or]
    have hwt : waiting maxIo f (q, tag) = a.wanted maxIo := by
      unfold waiting
      have : (f.qs q).pending.any (fun rq => rq.tag == tag) = true := pend_iff.2 ⟨_, hmem, rfl⟩
      simp only [this, if_true, hag]
    have hI := fun es hi => inv_step (es := es) hi (Step.enqueue (maxIo := maxIo) (depth := depth) (fails := false) (f.qs q) (rqOf a tag) rest hl hp)
    cases hdq : devReq { f.qs q with pending := rest } (rqOf a tag) with
    | none =>
      have hw : a.wanted maxIo = none := by rw [← hdw, hdq]; rfl
      have he : enqueue { f.qs q with pending := rest } (rqOf a tag) =
          ({ f.qs q with pending := rest, out := upd (f.qs q).out tag none }, [.complete tag none ((f.qs q).bufs tag)]) := by
        unfold enqueue; rw [hdq]; rfl
      simp only [he] at hI hr ⊢
      obtain ⟨u', t', h1, h2⟩ := hS.silent hr
      obtain ⟨⟨es, hi⟩, qa, qb, qc, qe⟩ := h2.qs q
      refine ⟨u', t', ?_, h2.lag, ?_, ?_⟩
      · simpa [comps, KLab.view, hag, hw] using h1
      · refine Sim.early' h2.early ?_
        refine Eq.trans (waiting_set (p := (q, tag)) none (fun _ _ _ => rfl) hoth rfl ?_) (upd_noop (by rw [hwt, hw]))
        simp only [hnot, Bool.false_eq_true, if_false]
      · refine qs_set h2.qs (fun _ _ _ => rfl) (fun _ _ _ => rfl) ⟨⟨_, hI es hi⟩, ?_, ?_, qc, qe⟩
        · intro tg r hr'
          simp only at hr'
          by_cases e : tg = tag
          · rw [e, upd_same] at hr'; cases hr'
          · rw [upd_ne _ _ e] at hr'; exact qa tg r hr'
        · intro r hr'; exact qb r (hrest r hr').1
    | some dq =>
      have hw : a.wanted maxIo = some dq.toReq := by rw [← hdw, hdq]; rfl
      obtain ⟨bk, he⟩ : ∃ bk, enqueue { f.qs q with pending := rest } (rqOf a tag) =
          ({ f.qs q with pending := rest, chan := (f.qs q).chan ++ [(tag, dq)], inflight := upd (f.qs q).inflight tag (some (rqOf a tag)),
                         back := bk, queued := true }, [.dev tag dq]) := by
        unfold enqueue; rw [hdq]; exact ⟨_, rfl⟩
      simp only [he] at hI hr ⊢
      have hcalls : kcalls q [.dev tag dq] = [.issue q tag dq.toReq] := rfl
      rw [hcalls] at hr
      obtain ⟨d1, h1, h2, h3⟩ := Stack.issue_run hr
      obtain ⟨u1, t1, h4, h5⟩ := hS.silent h1
      have hwt' : waiting maxIo f (q, tag) = some dq.toReq := by rw [hwt, hw]
      have hto := (h5.early.wait _ _ hwt').1
      have hlag := h5.lag.issue (fun _ _ e => e) (o := (q, tag)) dq.toReq hto
      obtain ⟨⟨es, hi⟩, qa, qb, qc, qe⟩ := h5.qs q
      have h8 : Sim maxIo ⟨upd f.qs q { f.qs q with pending := rest, chan := (f.qs q).chan ++ [(tag, dq)], inflight := upd (f.qs q).inflight tag (some (rqOf a tag)), back := bk, queued := true }, f.box, f.asked⟩
          (Disk.issue d1 (q, tag) dq.toReq) u1 (Dev.issue t1 (q, tag) dq.toReq) := by
        refine ⟨hlag, ?_, ?_⟩
        · refine Sim.early' (h5.early.issue hwt') ?_
          refine waiting_set (p := (q, tag)) none (fun _ _ _ => rfl) hoth rfl ?_
          simp only [hnot, Bool.false_eq_true, if_false]
        · refine qs_set h5.qs (fun _ _ _ => rfl) (fun q' id e => ?_) ⟨⟨_, hI es hi⟩, qa, ?_, ?_, ?_⟩
          · rw [kinds_issue, if_neg (by simp [e])]
          · intro r hr'; exact qb r (hrest r hr').1
          · intro id dq' hm
            rcases List.mem_append.1 hm with hm | hm
            · exact qc id dq' hm
            · simp only [List.mem_singleton, Prod.mk.injEq] at hm
              obtain ⟨rfl, rfl⟩ := hm
              rw [hag]; exact hw
          · intro id kd hk
            simp only [kinds_issue] at hk
            split at hk
            · rename_i e
              simp only [Prod.mk.injEq, true_and] at e
              subst e
              exact ⟨dq, List.mem_append_right _ (List.mem_singleton.2 rfl), Option.some.inj hk⟩
            · obtain ⟨dq', g1, g2⟩ := qe id kd hk
              exact ⟨dq', List.mem_append_left _ g1, g2⟩
      obtain ⟨u2, t2, h9, h10⟩ := h8.silent h3
      exact ⟨u2, t2, by simpa [comps] using h4.trans h9, h10⟩
  | report q id ok data buf pre post dq hb hl hp hq hc hf hd =>
    obtain ⟨u1, t1, h1, h2⟩ := hS.silent hr
    obtain ⟨g1, g2, g3⟩ := h2.lag.handle (fun _ _ e => e) hb
    obtain ⟨k1, k2, k3, k4⟩ := h2.early.complete g1
    obtain ⟨⟨es, hi⟩, qa, qb, qc, qe⟩ := h2.qs q
    have hmem : (id, dq) ∈ (f.qs q).chan := by rw [hc]; simp
    have hwant := qc id dq hmem
    obtain ⟨rq, hin, hmatch⟩ := hi.chan1 id dq hmem
    obtain ⟨hout, htag⟩ := hi.outI id rq hin
    obtain ⟨hs1, hs2, -⟩ := hi.size id rq hout
    have hI := inv_step hi (Step.report (maxIo := maxIo) (depth := depth) (fails := false) (f.qs q) pre post id dq buf ok hl hp hq hc hf)
    have hnd := hi.chanN
    rw [hc, List.map_append, List.map_cons] at hnd
    have hsub : ∀ x, x ∈ pre ++ post → x ∈ (f.qs q).chan := by
      intro x hx
      rw [hc]
      rcases List.mem_append.mp hx with h | h
      · exact List.mem_append_left _ h
      · exact List.mem_append_right _ (.tail _ h)
    have hother : ∀ id' dq', id' ≠ id → (id', dq') ∈ (f.qs q).chan → (id', dq') ∈ pre ++ post := by
      intro id' dq' e hm
      rw [hc] at hm
      rcases List.mem_append.mp hm with h | h
      · exact List.mem_append_left _ h
      · rcases List.mem_cons.mp h with h | h
        · cases h; exact absurd rfl e
        · exact List.mem_append_right _ h
    obtain ⟨op, g4, g5⟩ := g1
    have hkind : op.kind = shape dq := by
      obtain ⟨dq', e1, e2⟩ := qe id op.kind (kinds_of_ops g4)
      have : dq' = dq := by
        by_cases e : dq' = dq
        · exact e
        · rw [hc] at e1
          have hn : id ∉ (pre ++ post).map Prod.fst := by rw [List.map_append]; exact (nodup_mid hnd).1
          rcases List.mem_append.mp e1 with h | h
          · exact absurd (List.mem_map.2 ⟨_, List.mem_append_left _ h, rfl⟩) hn
          · rcases List.mem_cons.mp h with h | h
            · cases h; rfl
            · exact absurd (List.mem_map.2 ⟨_, List.mem_append_right _ h, rfl⟩) hn
      rw [← e2, this]
    obtain ⟨b', res, rb, hrep, hbp, hbc, hbo⟩ : ∃ b' res rb, report { f.qs q with chan := pre ++ post, back := upd (f.qs q).back id (buf ++ ((f.qs q).back id).drop buf.length) } id ok = (b', [.complete id res rb]) ∧
        b'.pending = [] ∧ b'.chan = pre ++ post ∧ b'.out = upd (f.qs q).out id none := by
      unfold report
      simp only [hin, completeRequest]
      cases ok with
      | false => exact ⟨_, _, _, rfl, hp, rfl, rfl⟩
      | true =>
        simp only [Bool.not_true, Bool.false_eq_true, if_false]
        cases hop : rq.op <;> exact ⟨_, _, _, rfl, hp, rfl, rfl⟩
    have hres : res.isSome = ok ∧ kfound rb dq.toReq ok = data := by
      have hev : (report { f.qs q with chan := pre ++ post, back := upd (f.qs q).back id (buf ++ ((f.qs q).back id).drop buf.length) } id ok).2 = [.complete id res rb] := by rw [hrep]
      rw [Dev.result_eq g4] at g2
      cases ok with
      | false =>
        unfold report at hev
        simp only [hin, completeRequest, Bool.not_false, if_true, finish, List.cons.injEq, UEv.complete.injEq, and_true, true_and] at hev
        obtain ⟨rfl, -⟩ := hev
        refine ⟨rfl, ?_⟩
        rw [← g2]
        cases op <;> cases dq <;> rfl
      | true =>
        obtain ⟨d1, d2⟩ := hd rfl
        unfold report at hev
        simp only [hin, completeRequest, Bool.not_true, Bool.false_eq_true, if_false, finish] at hev
        cases dq with
        | read off cnt =>
          have hop := hmatch.1
          rw [hop] at hev
          simp only [htag, upd_same, List.cons.injEq, UEv.complete.injEq, and_true, true_and] at hev
          obtain ⟨rfl, rfl⟩ := hev
          refine ⟨rfl, ?_⟩
          have hcnt : data.length = cnt := by
            cases op with
            | read off' cnt' got =>
              simp only [Op.kind, shape, Disk.Kind.read.injEq] at hkind
              rw [← g2, ← hkind.2]; simp [Op.result]
            | write => simp [Op.kind, shape] at hkind
            | flush => simp [Op.kind, shape] at hkind
          have hbl : buf.length = cnt * 512 := hf
          have hby : rq.bytes = cnt * 512 := by rw [hs1, hmatch.2.2]
          have htk : (buf ++ ((f.qs q).back id).drop buf.length).take rq.bytes = buf := by
            rw [hby, ← hbl, List.take_left']; rfl
          have hfl := sector_flat data d1
          rw [← d2] at hfl
          show kfound _ (.read off cnt) true = data
          unfold kfound
          rw [htk, ← hcnt]
          refine Eq.trans (List.map_congr_left fun j hj => ?_) hfl
          have hj' : j < cnt := by rw [← hcnt]; exact List.mem_range.1 hj
          congr 1
          unfold sectorOf splice
          rw [List.take_zero, List.nil_append, List.drop_append_of_le_length (by omega), List.take_append_of_le_length]
          rw [List.length_drop]; omega
        | write off cnt dt =>
          have hop := hmatch.1
          rw [hop] at hev
          simp only [List.cons.injEq, UEv.complete.injEq, and_true, true_and] at hev
          obtain ⟨rfl, -⟩ := hev
          refine ⟨rfl, ?_⟩
          rw [← g2]
          cases op with
          | read => simp [Op.kind, shape] at hkind
          | write => rfl
          | flush => rfl
        | flush =>
          have hop : rq.op = .flush := hmatch
          rw [hop] at hev
          simp only [List.cons.injEq, UEv.complete.injEq, and_true, true_and] at hev
          obtain ⟨rfl, -⟩ := hev
          refine ⟨rfl, ?_⟩
          rw [← g2]
          cases op with
          | read => simp [Op.kind, shape] at hkind
          | write => rfl
          | flush => rfl
    rw [hrep] at hI
    simp only [hrep]
    refine ⟨u1.complete (q, id) ok, t1.complete (q, id) ok, ?_, g3, ?_, ?_⟩
    · have hv : (comps f q [.complete id res rb]).flatMap (KLab.view maxIo) = [.resp q id ok (u1.result (q, id) ok)] := by
        simp only [comps, List.filterMap_cons, List.filterMap_nil, List.flatMap_cons, List.flatMap_nil, KLab.view, hwant, List.append_nil,
          hres.1, hres.2, k3, g2]
      rw [hv]
      exact h1.trans (Disk.Run.one (.respond u1 q id ok k2))
    · exact Sim.early' k4 (waiting_same fun tag => by rw [hbp, hp])
    · refine qs_set h2.qs (fun _ _ _ => rfl) (fun q' id' e => ?_) ⟨⟨_, hI⟩, ?_, ?_, ?_, ?_⟩
      · rw [kinds_complete, if_neg (by simp [e])]
      · intro tg r hr'
        rw [hbo] at hr'
        by_cases e : tg = id
        · rw [e, upd_same] at hr'; cases hr'
        · rw [upd_ne _ _ e] at hr'; exact qa tg r hr'
      · intro r hr'; rw [hbp] at hr'; cases hr'
      · intro id' dq' hm; rw [hbc] at hm; exact qc id' dq' (hsub _ hm)
      · intro id' kd hk
        simp only [kinds_complete] at hk
        split at hk
        · cases hk
        · rename_i e
          have e' : id' ≠ id := fun e' => e (by rw [e'])
          obtain ⟨dq', e1, e2⟩ := qe id' kd hk
          exact ⟨dq', by rw [hbc]; exact hother id' dq' e' e1, e2⟩

theorem front_sim {v : Nat → Bytes} {ls : List KLab} {es : List (Ev Bytes)} (h : KRun maxIo depth ls es f) :
    ∀ {d : Disk Bytes}, Disk.Run (Dev.fresh v) es d → ∃ u t, Disk.Run (Dev.fresh v) (ls.flatMap (KLab.view maxIo)) u ∧ Sim maxIo f d u t := by
  induction h with
  | nil =>
    intro d hd
    exact ⟨_, _, .nil _, Sim.init ((Stack.AtRest.fresh v).silent hd)⟩
  | step h hs ih =>
    intro d hd
    obtain ⟨m, h1, h2⟩ := hd.split _ _ rfl
    obtain ⟨u, t, h3, h4⟩ := ih h1
    obtain ⟨u', t', h5, h6⟩ := step_sim hs h2 h4
    exact ⟨u', t', by rw [List.flatMap_append]; exact h3.trans h5, h6⟩

end Verif.Ublk
