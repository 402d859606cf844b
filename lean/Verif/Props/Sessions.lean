import Verif.Spec.Sessions
import Verif.Props.Wake
import Verif.Props.FrontDemo
import Verif.Proof.LazyServe

/-! # C83: clients come and go -/

set_option maxRecDepth 8000

namespace Verif.Wake
open Verif

variable {E : Bool} {size : Nat} {kind : Nat → Kind} {s s' : Sys}

/-! ### The loop -/

/-- **C83** The backend has served all its sessions and goes on to the next exactly if each of them could be set up and ended with the
client going: a clean end, a closed or broken connection, a message that is cut off or no message at all. -/
theorem C83_goes_on (socket : Option String) (ss : List Session) :
    backendLoop socket ss = (ss.length, false) ↔
      ∀ s ∈ ss, socket ≠ none ∧ s.created = true ∧ s.listens = true ∧ s.accepted = true ∧
        (s.ended = .ok ∨ s.ended = .request .disconnected ∨ s.ended = .request .partialMessage ∨ s.ended = .request .invalidMessage ∨
          s.ended = .request .socketBroken) := by
  have hg : ∀ e : Ended, e.gone = true ↔ (e = .ok ∨ e = .request .disconnected ∨ e = .request .partialMessage ∨
      e = .request .invalidMessage ∨ e = .request .socketBroken) := by
    intro e
    cases e with
    | ok => simp [Ended.gone]
    | other => simp [Ended.gone]
    | request r => cases r <;> simp [Ended.gone]
  induction ss with
  | nil => simp [backendLoop]
  | cons s ss ih =>
    have hv : serveVhost socket s = true ↔ socket ≠ none ∧ s.created = true ∧ s.listens = true ∧ s.accepted = true ∧
        (s.ended = .ok ∨ s.ended = .request .disconnected ∨ s.ended = .request .partialMessage ∨ s.ended = .request .invalidMessage ∨
          s.ended = .request .socketBroken) := by
      rw [← hg]
      unfold serveVhost
      simp only [Bool.and_eq_true, Option.isSome_iff_ne_none]
      constructor
      · rintro ⟨⟨⟨⟨a, b⟩, c⟩, d⟩, e⟩; exact ⟨b, a, c, d, e⟩
      · rintro ⟨b, a, c, d, e⟩; exact ⟨⟨⟨⟨a, b⟩, c⟩, d⟩, e⟩
    unfold backendLoop
    by_cases h : serveVhost socket s = true
    · rw [if_pos h]
      simp only [List.mem_cons, forall_eq_or_imp]
      refine ⟨fun e => ⟨hv.1 h, ih.1 ?_⟩, fun e => by rw [ih.2 e.2]; rfl⟩
      simp only [List.length_cons, Prod.mk.injEq] at e
      exact Prod.ext (by omega) e.2
    · rw [if_neg h]
      constructor
      · intro e; simp at e
      · intro e; exact absurd (hv.2 (e s (.head _))) h

/-- **C83** In general: the sessions served are those before the first one that could not be set up or did not end with the client going. -/
theorem C83_served (socket : Option String) (ss : List Session) : ∃ done rest, ss = done ++ rest ∧
    backendLoop socket done = (done.length, false) ∧ (backendLoop socket ss).1 = done.length ∧
    ((backendLoop socket ss).2 = false ↔ rest = []) ∧ ∀ s r, rest = s :: r → backendLoop socket [s] = (0, true) := by
  induction ss with
  | nil => exact ⟨[], [], rfl, rfl, rfl, by simp [backendLoop], by simp⟩
  | cons a ss ih =>
    obtain ⟨done, rest, rfl, h1, h2, h3, h4⟩ := ih
    by_cases h : serveVhost socket a = true
    · refine ⟨a :: done, rest, rfl, ?_, ?_, ?_, h4⟩
      · rw [backendLoop, if_pos h, h1]; rfl
      · rw [backendLoop, if_pos h, h2]; rfl
      · rw [backendLoop, if_pos h]; exact h3
    · refine ⟨[], a :: (done ++ rest), rfl, rfl, ?_, ?_, ?_⟩
      · rw [backendLoop, if_neg h]; rfl
      · rw [backendLoop, if_neg h]; simp
      · intro s r he
        cases he
        rw [backendLoop, if_neg h]

/-- **C83** is false of clients that break the protocol in other ways: whatever was served before, one request that the library refuses
with another error ends the backend and with it the service for all later clients. -/
theorem C83_false_protocol (socket : String) (ss rest : List Session) (h : backendLoop (some socket) ss = (ss.length, false)) (s : Session)
    (hs : s.ended = .request .other) : backendLoop (some socket) (ss ++ s :: rest) = (ss.length, true) := by
  induction ss with
  | nil =>
    have : serveVhost (some socket) s = false := by unfold serveVhost; rw [hs]; simp [Ended.gone]
    simp [backendLoop, this]
  | cons a ss ih =>
    rw [List.cons_append, backendLoop]
    rw [backendLoop] at h
    by_cases hv : serveVhost (some socket) a = true
    · rw [if_pos hv] at h ⊢
      simp only [List.length_cons, Prod.mk.injEq] at h
      rw [ih (Prod.ext (by omega) h.2)]; rfl
    · rw [if_neg hv] at h; simp at h

/-- Two clients come and go, a third one breaks the protocol. -/
example : backendLoop (some "/run/vhost.sock") [⟨true, true, true, .request .disconnected⟩, ⟨true, true, true, .ok⟩,
    ⟨true, true, true, .request .other⟩, ⟨true, true, true, .ok⟩] = (2, true) :=
  C83_false_protocol "/run/vhost.sock" [⟨true, true, true, .request .disconnected⟩, ⟨true, true, true, .ok⟩] _
    ((C83_goes_on _ _).2 (by simp)) _ rfl

/-! ### Requests of a driver that outlives the connection -/

theorem SRun.inv (hs : size ≤ 32768) (h : SRun true size kind s) : A size s ∧ B true s := by
  induction h with
  | init => exact ⟨A.init, B.init⟩
  | worker _ st ih => exact ⟨ih.1.worker hs st, B.worker hs ih.1 ih.2 st⟩
  | driver _ st ih => exact ⟨ih.1.driver st, B.driver ih.1 ih.2 st⟩
  | @client s fromUsed k _ hw ih =>
    obtain ⟨ha, hb⟩ := ih
    rw [B, hw] at hb
    obtain ⟨⟨h1, h2⟩, h3⟩ := hb.1 rfl
    have hl := ha.len
    rw [h3] at hl
    have hn : (if fromUsed then s.ring.length else s.next) = s.next := by cases fromUsed <;> simp at hl ⊢; exact hl
    have hp := ha.perm
    rw [h3] at hp
    unfold Sys.nextClient
    rw [hn]
    refine ⟨⟨ha.next, ha.old, ha.batch, ha.seen, ha.room, hp⟩, fun _ => ⟨⟨h1, ?_⟩, rfl⟩, fun h => (by cases h)⟩
    rcases h2 with h | h
    · exact Or.inl (by simp [h])
    · exact Or.inr h

/-- **C83** With the event index: when a session ends, everything taken from the queue has been answered, once; nothing is left in the
channel; and the two indices a client may start the next session from are the same. Over any number of sessions. -/
theorem C83_idle_partial (hs : size ≤ 32768) (h : SRun true size kind s) (hw : s.pc = .wait) :
    s.inflight = [] ∧ s.ring.Perm (List.range s.next) ∧ s.ring.length = s.next := by
  obtain ⟨ha, hb⟩ := h.inv hs
  rw [B, hw] at hb
  have h3 := (hb.1 rfl).2
  have hp := ha.perm
  rw [h3, List.append_nil] at hp
  exact ⟨h3, hp, by simpa using hp.length_eq⟩

/-- **C83** With the event index: over any number of sessions no chain is returned twice, and when the worker of the present one sleeps
and the driver has nothing to tell it, every chain the driver ever made available has been returned. -/
theorem C83_answered_partial (hs : size ≤ 32768) (h : SRun true size kind s) : s.ring.Nodup ∧ (WorkerAsleep s → AllAnswered s) := by
  obtain ⟨ha, hb⟩ := h.inv hs
  refine ⟨(List.nodup_append.1 ((ha.perm.nodup_iff).2 List.nodup_range)).1, fun ⟨h1, h2, h3⟩ => ?_⟩
  rw [B, h1] at hb
  obtain ⟨⟨_, hk⟩, hi⟩ := hb.1 rfl
  have hp := ha.perm
  rw [hi, List.append_nil] at hp
  have hn : s.next = s.avail := by
    have := ha.next
    rcases hk with hk | hk
    · rw [h2] at hk; cases hk
    · omega
  rw [AllAnswered, ← hn]
  exact hp

/-- **C83** With the event index and requests that all go through the I/O channel: if both sides sleep, the driver has seen every answer,
also those of earlier sessions. -/
theorem C83_seen_partial (hs : size ≤ 32768) (hg : ∀ c, kind c = .dev) (h : SRun true size kind s) (hw : WorkerAsleep s) (hd : DriverAsleep s) :
    AllAnswered s ∧ s.seen = s.avail := by
  have key : C true kind s ∧ D size s := by
    clear hw hd
    induction h with
    | init => exact ⟨C.init, ⟨fun h => absurd h (by decide), rfl⟩⟩
    | worker r st ih =>
      exact ⟨C.worker hs (r.inv hs).1 (fun _ => by have := ih.2.le; omega) ih.1 st, D.worker rfl hg (r.inv hs).1 ih.2 st⟩
    | driver r st ih => exact ⟨C.driver hs (r.inv hs).1 ih.1 st, D.driver ih.2 st⟩
    | @client s fromUsed k r hw ih =>
      obtain ⟨hc, hd⟩ := ih
      have h0 : s.added = 0 := by
        have := hd.2
        rw [hw] at this; exact this
      refine ⟨⟨fun _ => Or.inr ?_, hc.event, fun e hsl => ?_, fun e => (by cases e), fun _ => ⟨fun _ _ => rfl, fun _ => rfl⟩, fun h => (by cases h)⟩,
        fun h => absurd h (by simp [Sys.nextClient]), rfl⟩
      · simp [Sys.nextClient]
      · rcases hc.sleepE e hsl with h | h | h
        · exact Or.inl (by simp only [Sys.nextClient]; omega)
        · exact Or.inr (Or.inl h)
        · rw [hw] at h; cases h
  have ha := (h.inv hs).1
  have hall := (C83_answered_partial hs h).2 hw
  refine ⟨hall, ?_⟩
  have h0 : s.added = 0 := by
    have := key.2.2
    rw [hw.1] at this; exact this
  have hlen : s.ring.length = s.avail := by simpa using hall.length_eq
  rcases key.1.sleepE rfl hd.1 with h | h | h
  · have := ha.seen; omega
  · rw [hd.2] at h; cases h
  · rw [hw.1] at h; cases h

theorem SRun.of (h : Reach E size kind s) : SRun E size kind s := by
  induction h with
  | init => exact .init
  | worker _ st _ ih => exact .worker ih st
  | driver _ st _ ih => exact .driver ih st

/-- The worker looks at an empty queue and goes back to sleep (no event index). -/
theorem SRun.look {kind : Nat → Kind} (h : SRun false size kind s) (hpc : s.pc = .wait) (hi : s.inflight = []) (hp : s.pending = false)
    (hn : s.avail % 65536 = s.next % 65536) (hk : s.kick = true) : SRun false size kind { s with kick := false } := by
  have h1 := h.worker (.wake _ hpc hk)
  have h2 := h1.worker (.popEnd _ .poll false rfl hn)
  have h3 := h2.worker (.pollEnd _ .poll false rfl)
  have h4 := h3.worker (.check _ .poll _ rfl)
  simp only [hi, hp, List.isEmpty_nil] at h4
  have h5 := h4.worker (.decide _ .poll false true rfl)
  have h6 := h5.worker (.popEnd _ .last false rfl hn)
  have h7 := h6.worker (.pollEnd _ .last false rfl)
  have h8 := h7.worker (.check _ .last _ rfl)
  simp only [hi, hp, List.isEmpty_nil] at h8
  have h9 := h8.worker (.decide _ .last false true rfl)
  have e : ({ s with kick := false } : Sys) = { s with kick := false, pc := .wait, inflight := [], pending := false } := by
    cases s; simp_all
  rw [e]
  simpa [afterQueue, hi, hp] using h9

/-- **C83** is false without the event index: a request is in the channel when the connection is lost, and the next session begins where the
last one stopped. Everybody is at rest, and the request is never answered. -/
theorem C83_false_lost : ∃ s, SRun false 4 (fun _ => .dev) s ∧ WorkerAsleep s ∧ s.avail = 1 ∧ s.ring = [] := by
  have h0 : SRun false 4 (fun _ => .dev) Sys.init := .init
  have h1 := h0.driver (.extraKick _)
  have h2 := h1.worker (.wake _ rfl rfl)
  have h3 := h2.worker (.popEnd _ .poll false rfl rfl)
  have h4 := h3.worker (.pollEnd _ .poll false rfl)
  have h5 := h4.worker (.check _ .poll false rfl)
  have h6 := h5.worker (.decide _ .poll false true rfl)
  have h7 := h6.driver (.publish _ (by decide) (by decide))
  have h8 := h7.worker (.pop _ .last false rfl (by decide))
  have h9 := h8.worker (.popEnd _ .last true rfl rfl)
  have h10 := h9.worker (.pollEnd _ .last true rfl)
  have h11 := h10.worker (.check _ .last true rfl)
  have h12 := h11.worker (.decide _ .last true true rfl)
  have h13 := h12.driver (.kick _ (by decide))
  have h14 := h13.client false false rfl
  exact ⟨_, h14.look rfl rfl rfl rfl rfl, ⟨rfl, rfl, rfl⟩, rfl, rfl⟩

/-- **C83** is false without the event index also for clients that start from the used ring: two requests are in the channel, the second is
answered and the connection lost. The next session takes the second one again; it is answered twice, the first one never. -/
theorem C83_false_twice : ∃ s, SRun false 4 (fun _ => .dev) s ∧ WorkerAsleep s ∧ s.avail = 2 ∧ s.ring = [1, 1] := by
  have h0 : SRun false 4 (fun _ => .dev) Sys.init := .init
  have h1 := h0.driver (.extraKick _)
  have h2 := h1.worker (.wake _ rfl rfl)
  have h3 := h2.worker (.popEnd _ .poll false rfl rfl)
  have h4 := h3.worker (.pollEnd _ .poll false rfl)
  have h5 := h4.worker (.check _ .poll false rfl)
  have h6 := h5.worker (.decide _ .poll false true rfl)
  have h7 := h6.driver (.publish _ (by decide) (by decide))
  have h7' := h7.driver (.publish _ (by decide) (by decide))
  have h8 := h7'.worker (.pop _ .last false rfl (by decide))
  have h8' := h8.worker (.pop _ .last true rfl (by decide))
  have h9 := h8'.worker (.popEnd _ .last true rfl rfl)
  have h9' := h9.worker (.complete _ .last true 1 rfl (by decide))
  have h10 := h9'.worker (.pollEnd _ .last true rfl)
  have h11 := h10.worker (.check _ .last true rfl)
  have h11' := h11.worker (.sig _ .last true rfl)
  have h12 := h11'.worker (.decide _ .last true true rfl)
  have h13 := h12.driver (.kick _ (by decide))
  have h14 := h13.client true true rfl
  have k1 := h14.worker (.wake _ rfl rfl)
  have k2 := k1.worker (.pop _ .poll false rfl (by decide))
  have k3 := k2.worker (.popEnd _ .poll true rfl rfl)
  have k4 := k3.worker (.complete _ .poll true 1 rfl (by decide))
  have k5 := k4.worker (.pollEnd _ .poll true rfl)
  have k6 := k5.worker (.check _ .poll true rfl)
  have k7 := k6.worker (.sig _ .poll true rfl)
  have k8 := k7.worker (.decide _ .poll true true rfl)
  have k9 := k8.worker (.popEnd _ .poll false rfl rfl)
  have k10 := k9.worker (.pollEnd _ .poll false rfl)
  have k11 := k10.worker (.check _ .poll false rfl)
  have k12 := k11.worker (.decide _ .poll false true rfl)
  have k13 := k12.worker (.popEnd _ .last false rfl rfl)
  have k14 := k13.worker (.pollEnd _ .last false rfl)
  have k15 := k14.worker (.check _ .last false rfl)
  have k16 := k15.worker (.decide _ .last false true rfl)
  exact ⟨_, k16, ⟨rfl, rfl, rfl⟩, rfl, rfl⟩

/-- A case of the theorems above: the connection is lost with a kick under way, the next session answers the request, and the connection is
lost again while both sides sleep. -/
theorem demo_sessions : ∃ s, SRun true 4 (fun _ => .dev) s ∧ WorkerAsleep s ∧ DriverAsleep s ∧ s.avail = 1 := by
  have a0 : SRun true 4 (fun _ => .dev) Sys.init := .init
  have a1 := a0.driver (.publish _ (by decide) (by decide))
  have a2 := a1.driver (.kick _ (by decide))
  have a3 := a2.client false false rfl
  have a4 := a3.worker (.wake _ rfl rfl)
  have h := a4.worker (.pop _ .poll false rfl (by decide))
  have h1 := h.worker (.popEnd _ .poll true rfl rfl)
  have h2 := h1.worker (.complete _ .poll true 0 rfl (by decide))
  have h3 := h2.worker (.pollEnd _ .poll true rfl)
  have h4 := h3.worker (.check _ .poll true rfl)
  have h5 := h4.worker (.sig _ .poll true (by simp [Sys.nextClient, Sys.pop, Sys.addUsed, Sys.init, needEvent, sub16]))
  have h6 := h5.driver (.interrupt _ rfl)
  have h7 := h6.driver (.take _ rfl (by decide))
  have h8 := h7.driver (.arm _ rfl)
  have h9 := h8.driver (.sleep _ rfl rfl)
  have h10 := h9.worker (.decide _ .poll true true rfl)
  have h11 := h10.worker (.popEnd _ .poll false rfl rfl)
  have h12 := h11.worker (.pollEnd _ .poll false rfl)
  have h13 := h12.worker (.check _ .poll false rfl)
  have h14 := h13.worker (.decide _ .poll false true rfl)
  have h14' := h14.worker (.enable _ rfl)
  have h15 := h14'.worker (.popEnd _ .event false rfl rfl)
  have h16 := h15.worker (.pollEnd _ .event false rfl)
  have h17 := h16.worker (.check _ .event false rfl)
  have h18 := h17.worker (.decide _ .event false true rfl)
  have h19 := h18.client true false rfl
  exact ⟨_, h19, ⟨rfl, rfl, rfl⟩, ⟨rfl, rfl⟩, rfl⟩

example : ∃ s : Sys, s.inflight = [] ∧ s.ring.length = s.next ∧ AllAnswered s ∧ s.seen = s.avail ∧ s.avail = 1 := by
  obtain ⟨s, h, hw, hd, ha⟩ := demo_sessions
  obtain ⟨h1, -, h2⟩ := C83_idle_partial (by omega) h hw.1
  obtain ⟨h3, h4⟩ := C83_seen_partial (by omega) (fun _ => rfl) h hw hd
  exact ⟨s, h1, h2, h3, h4, ha⟩

end Verif.Wake

namespace Verif.Vhost
open Verif Verif.Metadata Verif.Disk
open Verif.Restore (seven plainCfg)

variable {dev : Bytes} {n bs : Nat} {mem : GMem} {f : Front} {ls : List FLab} {es : List (Ev Bytes)}

/-! ### The disk the clients see -/

theorem complete_popped (v : Vq) (uid head status : Nat) (st : UInt8) : (complete v uid head status st).1.popped = v.popped := by
  unfold complete
  simp only []
  split <;> rfl

theorem pollOne_popped {v v' : Vq} {id : Nat} {ok : Bool} {es : List VEv} (h : pollOne v id ok = .ok (v', es)) : v'.popped = v.popped := by
  unfold pollOne at h
  split at h
  · cases h
  · split at h
    · split at h
      · cases h
      · simp only [Res.ok.injEq, Prod.mk.injEq] at h
        rw [← h.1]
        exact complete_popped _ _ _ _ _
    · simp only [Res.ok.injEq, Prod.mk.injEq] at h
      rw [← h.1]
      exact complete_popped _ _ _ _ _

theorem mem_returns {f : Front} {q q' k : Nat} {m m0 m' : GMem} {es : List VEv} {ds : List Desc} {st : Option UInt8}
    (h : FLab.returned q' k m0 ds st m' ∈ returns f q m es) : q' = q := by
  simp only [returns, List.mem_filterMap] at h
  obtain ⟨e, -, he⟩ := h
  cases e <;> simp at he
  exact he.1.symm

theorem not_returns {f : Front} {q : Nat} {m : GMem} {es : List VEv} : FLab.client ∉ returns f q m es ∧
    ∀ q' k m' ds, FLab.popped q' k m' ds ∉ returns f q m es := by
  refine ⟨fun h => ?_, fun q' k m' ds h => ?_⟩ <;>
  · simp only [returns, List.mem_filterMap] at h
    obtain ⟨e, -, he⟩ := h
    cases e <;> simp at he

/-- Queues of earlier clients and of the present one. -/
structure Apart (ls : List FLab) (f : Front) : Prop where
  used : ∀ q k m ds, FLab.popped q k m ds ∈ ls → q < f.first ∨ 0 < (f.qs q).popped
  split : ∀ l1 l2, ls = l1 ++ .client :: l2 → ∃ b, b ≤ f.first ∧ (∀ q k m ds, FLab.popped q k m ds ∈ l1 → q < b) ∧
    ∀ q k m0 ds st m, FLab.returned q k m0 ds st m ∈ l2 → b ≤ q

/-- Labels of queues of the present client. -/
theorem Apart.more {ls ls' : List FLab} {f f' : Front} (h : Apart ls f) (h1 : f'.first = f.first) (h2 : ∀ q, (f.qs q).popped ≤ (f'.qs q).popped)
    (h3 : FLab.client ∉ ls') (h4 : ∀ q k m ds, FLab.popped q k m ds ∈ ls' → 0 < (f'.qs q).popped)
    (h5 : ∀ q k m0 ds st m, FLab.returned q k m0 ds st m ∈ ls' → f.first ≤ q) : Apart (ls ++ ls') f' := by
  refine ⟨fun q k m ds hm => ?_, fun l1 l2 he => ?_⟩
  · rcases List.mem_append.1 hm with hm | hm
    · rcases h.used q k m ds hm with h | h
      · exact Or.inl (h1 ▸ h)
      · exact Or.inr (Nat.lt_of_lt_of_le h (h2 q))
    · exact Or.inr (h4 q k m ds hm)
  · rcases List.append_eq_append_iff.1 he with ⟨x, e1, e2⟩ | ⟨x, e1, e2⟩
    · exact absurd (e2 ▸ List.mem_append_right x (.head _)) h3
    · rcases x with _ | ⟨y, x⟩
      · rw [List.nil_append] at e2
        exact absurd (e2 ▸ .head _) h3
      · rw [List.cons_append, List.cons.injEq] at e2
        obtain ⟨rfl, rfl⟩ := e2
        obtain ⟨b, b1, b2, b3⟩ := h.split l1 x e1
        refine ⟨b, h1 ▸ b1, b2, fun q k m0 ds st m hm => ?_⟩
        rcases List.mem_append.1 hm with hm | hm
        · exact b3 q k m0 ds st m hm
        · exact Nat.le_trans b1 (h5 q k m0 ds st m hm)

theorem apart_run (hbs : bs < 2 ^ 32) (h : FRun dev n bs mem ls es f) (hs : ∀ q k m ds, FLab.popped q k m ds ∈ ls → Sane ds)
    {d : Disk Bytes} {v : Nat → Bytes} (hd : Disk.Run (Dev.fresh v) es d) (hc : FLab.crash ∉ ls) : Apart ls f := by
  induction h generalizing d with
  | nil => exact ⟨fun _ _ _ _ h => (by cases h), fun l1 l2 h => by simp at h⟩
  | @step ls ls' es es' f f' hr st ih =>
    obtain ⟨d1, hd1, -⟩ := hd.split es es' rfl
    have hs1 : ∀ q k m ds, FLab.popped q k m ds ∈ ls → Sane ds := fun q k m ds h => hs q k m ds (List.mem_append_left _ h)
    have ha := ih hs1 hd1 fun h => hc (List.mem_append_left _ h)
    obtain ⟨u, t, -, hS⟩ := front_sim hbs hr hs1 hd1
    have upd_le : ∀ {q v}, (f.qs q).popped ≤ v.popped → ∀ q', (f.qs q').popped ≤ (upd f.qs q v q').popped := by
      intro q v hv q'
      by_cases e : q' = q
      · subst e; rw [upd_same]; exact hv
      · rw [upd_ne _ _ e]
    cases st with
    | guest bytes => exact ha.more rfl (fun _ => Nat.le_refl _) (by simp) (by simp) (by simp)
    | deliver => exact ha.more rfl (fun _ => Nat.le_refl _) (by simp) (by simp) (by simp)
    | notify q hq => exact ha.more rfl (upd_le (Nat.le_refl _)) (by simp) (by simp) (by simp)
    | crash => exact absurd (List.mem_append_right _ (.head _)) hc
    | pop q head ds v es hq hlen hp =>
      obtain ⟨es0, hi⟩ := hS.inv q hq
      have hpp : v.popped = (f.qs q).popped + 1 := (chain_spec hp hi.small).1
      refine ha.more rfl (upd_le (by omega)) ?_ ?_ ?_
      · exact fun h => not_returns.1 (by simpa using h)
      · intro q' k m ds' hm
        simp only [List.mem_cons, FLab.popped.injEq] at hm
        rcases hm with ⟨rfl, -⟩ | hm
        · simp only [upd_same]; omega
        · exact absurd hm (not_returns.2 _ _ _ _)
      · intro q' k m0 ds' st m hm
        simp only [List.mem_cons, reduceCtorEq, false_or] at hm
        rw [mem_returns hm]; exact hq
    | handle q id ok data buf v es hq hb hf hdd hp =>
      have hpp : v.popped = (f.qs q).popped := by have := pollOne_popped hp; exact this
      refine ha.more rfl (upd_le (by omega)) not_returns.1 ?_ ?_
      · intro q' k m ds' hm
        exact absurd hm (not_returns.2 _ _ _ _)
      · intro q' k m0 ds' st m hm
        rw [mem_returns hm]; exact hq
    | client mem' m hm hu =>
      have hlt : ∀ q k m0 ds, FLab.popped q k m0 ds ∈ ls → q < m := by
        intro q k m0 ds h
        rcases ha.used q k m0 ds h with h | h
        · exact Nat.lt_of_lt_of_le h hm
        · refine Decidable.byContradiction fun hn => ?_
          rw [hu q (by omega)] at h; cases h
      refine ⟨fun q k m0 ds h => ?_, fun l1 l2 he => ?_⟩
      · simp only [List.mem_append, List.mem_singleton, reduceCtorEq, or_false] at h
        exact Or.inl (hlt q k m0 ds h)
      · rcases List.append_eq_append_iff.1 he with ⟨x, e1, e2⟩ | ⟨x, e1, e2⟩
        · rcases x with _ | ⟨y, x⟩
          · rw [List.append_nil] at e1
            rw [List.nil_append, List.cons.injEq] at e2
            subst e1
            rw [← e2.2]
            exact ⟨m, Nat.le_refl _, hlt, by simp⟩
          · simp at e2
        · rcases x with _ | ⟨y, x⟩
          · rw [List.append_nil] at e1
            rw [List.nil_append, List.cons.injEq] at e2
            rw [e2.2, ← e1]
            exact ⟨m, Nat.le_refl _, hlt, by simp⟩
          · rw [List.cons_append, List.cons.injEq] at e2
            obtain ⟨rfl, rfl⟩ := e2
            obtain ⟨b, b1, b2, b3⟩ := ha.split l1 x e1
            refine ⟨b, Nat.le_trans b1 hm, b2, fun q k m0 ds st m' h => ?_⟩
            simp only [List.mem_append, List.mem_singleton, reduceCtorEq, or_false] at h
            exact b3 q k m0 ds st m' h

/-- **C83** A client gets no answers to requests of the clients before it: the queues on which earlier clients' chains were taken are not
those on which later ones' are returned (each queue with its own channel, slots and chain numbers). -/
theorem C83_apart (hbs : bs < 2 ^ 32) (h : FRun dev n bs mem ls es f) (hs : ∀ q k m ds, FLab.popped q k m ds ∈ ls → Sane ds)
    {d : Disk Bytes} {v : Nat → Bytes} (hd : Disk.Run (Dev.fresh v) es d) (hc : FLab.crash ∉ ls) {l1 l2 : List FLab}
    (hl : ls = l1 ++ .client :: l2) {q k q' k' : Nat} {m m0 m' : GMem} {ds ds' : List Desc} {st : Option UInt8}
    (h1 : FLab.popped q k m ds ∈ l1) (h2 : FLab.returned q' k' m0 ds' st m' ∈ l2) : q ≠ q' := by
  obtain ⟨b, -, b2, b3⟩ := (apart_run hbs h hs hd hc).split l1 l2 hl
  have := b2 q k m ds h1
  have := b3 q' k' m0 ds' st m' h2
  omega

open Verif.Lazy in
/-- **C83** When nothing is in flight on any queue, present or past, every request ever taken has been answered (or a power loss has
ended it): nothing is left that could still take effect. -/
theorem C83_settled (hbs : bs < 2 ^ 32) (h : FRun dev n bs mem ls es f) (hs : ∀ q k m ds, FLab.popped q k m ds ∈ ls → Sane ds)
    {d : Disk Bytes} {v : Nat → Bytes} (hd : Disk.Run (Dev.fresh v) es d) (hi : ∀ q i, (f.qs q).inflight i = none) (q k : Nat) :
    ¬ waiting q k (ls.flatMap FLab.view) := by
  obtain ⟨u, t, h1, hS⟩ := front_sim hbs h hs hd
  intro hw
  obtain ⟨⟨q', i⟩, hp⟩ := hS.ren.cover _ (waiting_ops h1 hw)
  simp only [names, Option.map_eq_some_iff] at hp
  obtain ⟨s, hh, -⟩ := hp
  obtain ⟨r, dq, -, -, h3, -⟩ := hS.slot q' i s hh
  rw [hi] at h3; cases h3

/-- **C83** What a client has written and been told so, the next clients find: a write returned with status 0, then any number of changes
of client, then a read returned with status 0; no power loss in between, no other write of the sector asked for, and (as `C83_settled`
says of sessions that end with nothing in flight) no earlier write of it unanswered. -/
theorem C83_next_finds (hbs : bs < 2 ^ 32) (h : FRun dev n bs mem ls es f) (hs : ∀ q k m ds, FLab.popped q k m ds ∈ ls → Sane ds)
    {d : Disk Bytes} {v : Nat → Bytes} (hd : Disk.Run (Dev.fresh v) es d)
    {l0 l1 l2 l5 : List FLab} {q w q' r off cnt off' cnt' x : Nat} {data : Nat → Bytes} {m m' mr mr' : GMem}
    {ds dsr : List Desc}
    (hl : ls = (l0 ++ .popped q w m ds :: l1 ++ [.returned q w m ds (some 0) m']) ++ l2 ++
      (.popped q' r mr dsr :: l5 ++ [.returned q' r mr dsr (some 0) mr']))
    (hw : wanted m ds = some (.write off cnt data)) (hrd : wanted mr dsr = some (.read off' cnt'))
    (hx : covers off cnt x) (hx' : covers off' cnt' x)
    (h0 : settledWrites (l0.flatMap FLab.view) x) (h1 : quiet (l1.flatMap FLab.view) x) (h2 : quiet (l2.flatMap FLab.view) x)
    (h5 : quiet (l5.flatMap FLab.view) x)
    (a1 : unanswered (q, w) (l1.flatMap FLab.view)) (a2 : FLab.crash ∉ l2) (a5 : unanswered (q', r) (l5.flatMap FLab.view)) :
    sectorOf ((places (dataOf dsr)).map mr'.bytes) (x - off') = sectorOf ((places (dataOf ds)).map m.bytes) (x - off) := by
  obtain ⟨u, hu⟩ := C67_guest_view hbs h hs hd
  have hv : ls.flatMap FLab.view = (l0.flatMap FLab.view ++ Ev.issue q w (.write off cnt data) :: l1.flatMap FLab.view ++ [Ev.resp q w true []]) ++
      l2.flatMap FLab.view ++
      (Ev.issue q' r (.read off' cnt') :: l5.flatMap FLab.view ++ [Ev.resp q' r true (found mr' dsr (.read off' cnt') true)]) := by
    rw [hl]
    have d0 : decide (some (0 : UInt8) = some S_OK) = true := by decide
    simp only [d0, List.flatMap_append, List.flatMap_cons, List.flatMap_nil, FLab.view, hw, hrd, List.append_nil, found,
      List.nil_append, List.cons_append, List.append_assoc]
  rw [hv] at hu
  obtain ⟨m2, g1, g2⟩ := hu.split _ _ rfl
  obtain ⟨m1, g3, g4⟩ := g1.split _ _ rfl
  have a2' : ∀ e ∈ l2.flatMap FLab.view, e ≠ .crash := by
    rintro e he rfl
    obtain ⟨l, hl1, hl2⟩ := List.mem_flatMap.1 he
    cases l with
    | crash => exact a2 hl1
    | client => cases hl2
    | popped => simp only [FLab.view] at hl2; split at hl2 <;> simp at hl2
    | returned => simp only [FLab.view] at hl2; split at hl2 <;> simp at hl2
  have r3 := ((Rest.write g3 rfl h0 h1 a1 hx).run g4 h2 a2').read g2 h5 a5 hx'
  have hlt : x - off' < cnt' := by have := hx'.1; have := hx'.2; omega
  simp only [found, List.getElem?_map, List.getElem?_range hlt, Option.map_some, Option.some.injEq] at r3
  rw [r3, wanted_write hw]

/-- A client writes; the next one, on other queues and with other memory, reads. -/
theorem demo_clients : ∃ f m m', FRun [65] 1 512 (frontMem 1 7)
    ([.popped 0 0 (frontMem 1 7) (demoChain [(1000, 512, false)]), .returned 0 0 (frontMem 1 7) (demoChain [(1000, 512, false)]) (some S_OK) m] ++
      [.client] ++
      [.popped 1 0 (frontMem 0 1) (demoChain [(1000, 512, true)]), .returned 1 0 (frontMem 0 1) (demoChain [(1000, 512, true)]) (some S_OK) m'])
    [.issue 0 0 (.write 0 1 fun x => sectorOf ((span 1000 512).map (frontMem 1 7).bytes) (x - 0)), .resp 0 0 true [],
      .issue 1 0 (.read 0 1), .resp 1 0 true [some seven]] f ∧ ∀ q i, (f.qs q).inflight i = none := by
  have i1 := front_total [(1000, 512, false)] (by simp)
  have i3 := front_total [(1000, 512, true)] (by simp)
  obtain ⟨f1, s1, m, h1, b1, b2, b3, b4, b5, b6, b7, b8, b10, -, b11⟩ := round (dev := [65]) (n := 1) (bs := 512) (mem := frontMem 1 7) (q := 0) .nil (Nat.le_refl _)
    rfl rfl (zeros_length 512) rfl (front_write 7) i1.1 i1.2 (by rw [front_places]; exact front_mapped 1 7) (data := []) (by simp) rfl
  have b9 : f1.first = 0 := b7
  have h2 := h1.step (.client f1 (frontMem 0 1) 1 (by rw [b9]; decide) fun q hq => by rw [b8 q (by omega)]; rfl)
  obtain ⟨f2, s2, m', h3, -, -, -, -, -, -, -, c8, -, -, c11⟩ := round (q := 1) h2 (Nat.le_refl _) (s := ⟨false, .other, 0, 0, zeros 512, 0, 0, 0, []⟩) rfl rfl (zeros_length 512)
    (by show f1.box (1, 0) = none; rw [b10 _ (by decide)]; rfl)
    (front_read 1) i3.1 i3.2 (by rw [front_places]; exact front_mapped 0 1) (data := [some seven]) (by simp [Stack.seven_length]) rfl
  refine ⟨f2, m, m', by simpa [Front.init, Vq.init] using h3, fun q i => ?_⟩
  by_cases hq : q = 1
  · subst hq; exact c11 i rfl
  · rw [c8 q hq]
    show (if q < 1 then f1.qs q else Vq.init _ _ _).inflight i = none
    split
    · have : q = 0 := by omega
      subst this; exact b11 i rfl
    · rfl

theorem demo_clients_sane {m m' : GMem} : ∀ q k mm ds, FLab.popped q k mm ds ∈
      [FLab.popped 0 0 (frontMem 1 7) (demoChain [(1000, 512, false)]), .returned 0 0 (frontMem 1 7) (demoChain [(1000, 512, false)]) (some S_OK) m] ++
      [.client] ++
      [.popped 1 0 (frontMem 0 1) (demoChain [(1000, 512, true)]), .returned 1 0 (frontMem 0 1) (demoChain [(1000, 512, true)]) (some S_OK) m'] → Sane ds := by
  intro q k mm ds hm
  simp only [List.mem_append, List.mem_cons, FLab.popped.injEq, reduceCtorEq, List.not_mem_nil, or_false, false_or] at hm
  rcases hm with ⟨-, -, -, rfl⟩ | ⟨-, -, -, rfl⟩ <;> exact front_sane _ (by simp)

/-- A disk of zeros carries out a write and then a read. -/
theorem disk_write_read (g : Nat → Bytes) : ∃ d, Disk.Run (Dev.fresh fun _ => zeros 512)
    [.issue 0 0 (.write 0 1 g), .resp 0 0 true [], .issue 1 0 (.read 0 1), .resp 1 0 true [some (g 0)]] d := by
  have h1 := Disk.Run.one (Disk.Step.issue (Dev.fresh fun _ => zeros 512) 0 0 (.write 0 1 g) rfl)
  have h2 := h1.snoc (.exec _ (0, 0) 0)
  have h3 := h2.snoc (.respond _ 0 0 true ⟨_, rfl, fun _ x hx => by
    have : x = 0 := by have := hx.2; omega
    subst this; rfl⟩)
  have h4 := h3.snoc (.issue _ 1 0 (.read 0 1) rfl)
  have h5 := h4.snoc (.exec _ (1, 0) 0)
  have h6 := h5.snoc (.respond _ 1 0 true ⟨_, rfl, fun _ x hx => by
    have : x = 0 := by have := hx.2; omega
    subst this; exact (by simp)⟩)
  exact ⟨_, h6⟩

theorem demo_clients_disk : ∃ d, Disk.Run (Dev.fresh fun _ => zeros 512)
    [.issue 0 0 (.write 0 1 fun x => sectorOf ((span 1000 512).map (frontMem 1 7).bytes) (x - 0)), .resp 0 0 true [],
      .issue 1 0 (.read 0 1), .resp 1 0 true [some seven]] d := by
  have := disk_write_read fun x => sectorOf ((span 1000 512).map (frontMem 1 7).bytes) (x - 0)
  rw [← front_seven]; exact this

/-- A case of `C83_next_finds`. -/
example : ∃ m' : GMem, sectorOf ((span 1000 512).map m'.bytes) 0 = seven := by
  obtain ⟨f, m, m', h, -⟩ := demo_clients
  obtain ⟨d, hd⟩ := demo_clients_disk
  have hn : ∀ o, unanswered o ([] : List (Ev Bytes)) := fun o e h => by cases h
  have hq : ∀ x, quiet ([] : List (Ev Bytes)) x := fun x q id off cnt data h => by cases h
  have := C83_next_finds (x := 0) (l0 := []) (l1 := []) (l2 := [.client]) (l5 := []) (by decide) h demo_clients_sane hd rfl (front_write 7) (front_read 1)
    ⟨by decide, by decide⟩ ⟨by decide, by decide⟩ (fun a b q id off cnt data h => by cases a <;> cases h) (hq 0) (hq 0) (hq 0) (hn _) (by simp) (hn _)
  rw [front_places, front_places] at this
  exact ⟨m', this.trans front_seven⟩

/-- A case of `C83_apart`: the queues are 0 and 1. -/
example : (0 : Nat) ≠ 1 := by
  obtain ⟨f, m, m', h, -⟩ := demo_clients
  obtain ⟨d, hd⟩ := demo_clients_disk
  exact C83_apart (by decide) h demo_clients_sane hd (by simp)
    (l1 := [FLab.popped 0 0 (frontMem 1 7) (demoChain [(1000, 512, false)]), .returned 0 0 (frontMem 1 7) (demoChain [(1000, 512, false)]) (some S_OK) m])
    rfl (.head _) (.tail _ (.head _))

/-- A case of `C83_settled`. -/
example : ∃ f m m', FRun [65] 1 512 (frontMem 1 7)
    ([.popped 0 0 (frontMem 1 7) (demoChain [(1000, 512, false)]), .returned 0 0 (frontMem 1 7) (demoChain [(1000, 512, false)]) (some S_OK) m] ++
      [.client] ++
      [.popped 1 0 (frontMem 0 1) (demoChain [(1000, 512, true)]), .returned 1 0 (frontMem 0 1) (demoChain [(1000, 512, true)]) (some S_OK) m'])
    [.issue 0 0 (.write 0 1 fun x => sectorOf ((span 1000 512).map (frontMem 1 7).bytes) (x - 0)), .resp 0 0 true [],
      .issue 1 0 (.read 0 1), .resp 1 0 true [some seven]] f ∧
    ¬ Verif.Lazy.waiting 1 0 (([.popped 0 0 (frontMem 1 7) (demoChain [(1000, 512, false)]),
      .returned 0 0 (frontMem 1 7) (demoChain [(1000, 512, false)]) (some S_OK) m, .client, .popped 1 0 (frontMem 0 1) (demoChain [(1000, 512, true)]),
      .returned 1 0 (frontMem 0 1) (demoChain [(1000, 512, true)]) (some S_OK) m'] : List FLab).flatMap FLab.view) := by
  obtain ⟨f, m, m', h, hi⟩ := demo_clients
  obtain ⟨d, hd⟩ := demo_clients_disk
  exact ⟨f, m, m', h, C83_settled (by decide) h demo_clients_sane hd hi 1 0⟩

/-- The write of a client that has gone lands after that of the next one. -/
theorem disk_late (g g' : Nat → Bytes) : ∃ d, Disk.Run (Dev.fresh fun _ => zeros 512)
    [.issue 0 0 (.write 0 1 g), .issue 1 0 (.write 0 1 g'), .resp 1 0 true [], .issue 1 0 (.read 0 1), .resp 1 0 true [some (g 0)]] d := by
  have h1 := Disk.Run.one (Disk.Step.issue (Dev.fresh fun _ => zeros 512) 0 0 (.write 0 1 g) rfl)
  have h2 := h1.snoc (.issue _ 1 0 (.write 0 1 g') rfl)
  have h3 := h2.snoc (.exec _ (1, 0) 0)
  have h4 := h3.snoc (.respond _ 1 0 true ⟨_, rfl, fun _ x hx => by
    have : x = 0 := by have := hx.2; omega
    subst this; rfl⟩)
  have h5 := h4.snoc (.exec _ (0, 0) 0)
  have h6 := h5.snoc (.issue _ 1 0 (.read 0 1) rfl)
  have h7 := h6.snoc (.exec _ (1, 0) 0)
  have h8 := h7.snoc (.respond _ 1 0 true ⟨_, rfl, fun _ x hx => by
    have : x = 0 := by have := hx.2; omega
    subst this; exact (by simp)⟩)
  exact ⟨_, h8⟩

/-- **C83** is false of sessions that end with a request in the channel (`C83_false_lost`: this needs a driver without the event index):
the next client writes a sector and is told so, reads it, and finds what the gone client had wanted to write there. -/
theorem C83_false_late : ∃ ls es f d m m', FRun [65] 1 512 (frontMem 1 7) ls es f ∧ Disk.Run (Dev.fresh fun _ => zeros 512) es d ∧
    ls = [.popped 0 0 (frontMem 1 7) (demoChain [(1000, 512, false)]), .client,
      .popped 1 0 (frontMem 1 9) (demoChain [(1000, 512, false)]), .returned 1 0 (frontMem 1 9) (demoChain [(1000, 512, false)]) (some S_OK) m,
      .popped 1 1 (frontMem 0 1) (demoChain [(1000, 512, true)]), .returned 1 1 (frontMem 0 1) (demoChain [(1000, 512, true)]) (some S_OK) m'] ∧
    (∀ q k m ds, FLab.popped q k m ds ∈ ls → Sane ds) ∧ sectorOf ((span 1000 512).map m'.bytes) 0 = seven := by
  have i1 := front_total [(1000, 512, false)] (by simp)
  have i3 := front_total [(1000, 512, true)] (by simp)
  have h0 : FRun [65] 1 512 (frontMem 1 7) [] [] (Front.init (frontMem 1 7) 1 512) := .nil
  obtain ⟨f1, h1, a1, a2, a3⟩ := half_round (q := 0) h0 (Nat.le_refl _) rfl rfl (zeros_length 512) (front_write 7) i1.1 i1.2
  have a4 : f1.first = 0 := a1
  have h2 := h1.step (.client f1 (frontMem 1 9) 1 (by rw [a4]; decide) fun q hq => by rw [a2 q (by omega)]; rfl)
  obtain ⟨f3, s3, m, h3, b1, b2, b3, b4, b5, b6, b7, -⟩ := round (q := 1) h2 (Nat.le_refl _) (s := ⟨false, .other, 0, 0, zeros 512, 0, 0, 0, []⟩) rfl rfl
    (zeros_length 512) (by show f1.box (1, 0) = none; rw [a3]; rfl) (front_write 9) i1.1 i1.2
    (by rw [front_places]; exact front_mapped 1 9) (data := []) (by simp) rfl
  have h4 := h3.step (.guest f3 (frontMem 0 1).bytes)
  have em : ({ f3.mem with bytes := (frontMem 0 1).bytes } : GMem) = frontMem 0 1 := by
    have : f3.mem.ok = (frontMem 0 1).ok := b5
    cases hm : f3.mem; rw [hm] at this; simp only [frontMem] at this ⊢; rw [this]
  rw [em] at h4
  obtain ⟨f5, s5, m', h5, -, -, -, -, -, -, -, -, -, c, -⟩ := round (q := 1) h4 (Nat.le_of_eq b7) b1 b2 b3 b4 (front_read 1) i3.1 i3.2
    (by rw [front_places]; exact front_mapped 0 1) (data := [some seven]) (by simp [Stack.seven_length]) rfl
  have c1 := c 0 1 rfl (front_sane _ (by simp))
  rw [found, front_places] at c1
  simp only [List.range_one, List.map_cons, List.map_nil, List.cons.injEq, Option.some.injEq, and_true] at c1
  obtain ⟨d, hd⟩ := disk_late (fun x => sectorOf ((span 1000 512).map (frontMem 1 7).bytes) (x - 0)) fun x => sectorOf ((span 1000 512).map (frontMem 1 9).bytes) (x - 0)
  have e7 : sectorOf ((span 1000 512).map (frontMem 1 7).bytes) (0 - 0) = seven := front_seven
  rw [e7] at hd
  have e : ({ f3 with mem := frontMem 0 1 } : Front).qs 1 = f3.qs 1 := rfl
  rw [e, b6] at h5
  refine ⟨_, _, f5, d, m, m', h5, by simpa using hd, by simp [Front.init, Vq.init], ?_, c1⟩
  intro q k mm ds hm
  simp only [List.mem_append, List.mem_cons, FLab.popped.injEq, reduceCtorEq, List.not_mem_nil, or_false, false_or] at hm
  rcases hm with (⟨-, -, -, rfl⟩ | ⟨-, -, -, rfl⟩) | ⟨-, -, -, rfl⟩ <;> exact front_sane _ (by simp)

end Verif.Vhost
