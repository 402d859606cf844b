import Verif.Proof.WriteThrough
import Verif.Props.Uring

/-! # C105: devices opened for write-through -/

namespace Verif.WriteThrough
open Verif.Disk Verif.Uring

variable {D : Type} {cap : Nat} {sync : Bool} {v : Nat → D}

/-- C105: whatever the users of an io_uring device opened for write-through see, on any number of channels, with any submissions, completion
orders, failures and power losses, they could have seen of one disk that writes through, provided the kernel puts a write of an O_SYNC file on
stable storage before it reports success. -/
theorem C105_uring {as : List (Uring.Act D)} {s : Uring.Sys D} (h : Run cap sync v as s) :
    ∃ d, WDisk.Run (WDisk.fresh v) (as.flatMap Uring.Act.view) d := by
  obtain ⟨d, h, -⟩ := R.run h
  exact ⟨d, h⟩

theorem like {s s' : SyncIo.Sys D} {u : Uring.Sys D} {a : SyncIo.Act D} {us : List (Uring.Act D)} (l : SyncIo.Like s u)
    (h : SyncStep s a s') (hr : Run 1 false v us u) :
    ∃ bs u', Run 1 false v (us ++ bs) u' ∧ bs.flatMap Uring.Act.view = a.view ∧ SyncIo.Like s' u' := by
  cases h with
  | done c id ok hc hm =>
    obtain ⟨op, h1, h2⟩ := hm
    have hres : decide ((0 : Int) ≤ if ok then 0 else -1) = ok := by cases ok <;> rfl
    have h3 := hr.snoc (.done u c id (if ok then 0 else -1) op (by rw [l.dev]; exact h1) (fun h => h2 (by
      cases ok
      · simp at h
      · rfl)))
    refine ⟨_, _, h3, rfl, ?_⟩
    refine ⟨by simp only [hres, l.dev], ?_, ?_, ?_, ?_, ?_⟩ <;> intro c' <;> by_cases hcc : c' = c
    all_goals first
      | (subst hcc; simp [Uring.Chan.post, l.sq, l.kern, l.cq, l.fin, l.pend, l.dev, hc, Uring.report, hres])
      | (simp [upd_ne _ _ hcc, l.sq, l.kern, l.cq, l.fin, l.pend])
  | other ha h =>
  cases h with
  | done => simp [innerSync] at ha
  | add c id r hc hf =>
    have ho : ¬(u.ch c).outstanding id := by
      have h1 : (u.ch c).cq.map Prod.fst = (s.ch c).finished.map Prod.fst := by
        rw [← l.cq, List.map_map]; rfl
      simp only [Uring.Chan.outstanding, l.sq, l.kern, hc, h1, l.fin]
      simpa using hf
    have hadd : (u.ch c).add 1 false id r = { u.ch c with sq := [(id, r)], pending := 1 } := by
      simp [Uring.Chan.add, l.sq, l.pend]
    have h1 := hr.snoc (.other rfl (.add u c id r ho))
    have h2 := h1.snoc (.other rfl (.submit _ c 1 (by simp [hadd]) (by simp [hadd])))
    refine ⟨_, _, by simpa using h2, rfl, ?_⟩
    simp only [upd_same, Uring.upd_upd, hadd]
    have e : (Uring.Chan.submitted { u.ch c with sq := [(id, r)], pending := 1 }).take 1 =
        { u.ch c with sq := [], kern := (u.ch c).kern ++ [id], submissions := (u.ch c).submissions + 1, pending := 0 } := rfl
    rw [e]
    refine ⟨by simp [Uring.issueAll, l.dev], ?_, ?_, ?_, ?_, ?_⟩ <;> intro c' <;> by_cases hcc : c' = c
    all_goals first
      | (subst hcc; simp [l.kern, l.cq, l.fin, hc])
      | (simp [upd_ne _ _ hcc, l.sq, l.kern, l.cq, l.fin, l.pend])
  | exec o x =>
    refine ⟨_, _, hr.snoc (.other rfl (.exec u o x)), rfl, ?_⟩
    exact ⟨by simp [l.dev], l.sq, l.kern, l.cq, l.fin, l.pend⟩
  | poll c hc =>
    have hout : (u.ch c).poll.2 = (s.ch c).finished := by simp [Uring.Chan.poll, l.fin, l.cq]
    have h1 := hr.snoc (.other rfl (.poll u c))
    refine ⟨_, _, h1, by rw [hout]; simp [Uring.Act.view, SyncIo.Act.view], ?_⟩
    refine ⟨l.dev, ?_, ?_, ?_, ?_, ?_⟩ <;> intro c' <;> by_cases hcc : c' = c
    all_goals first
      | (subst hcc; simp [Uring.Chan.poll, l.sq, l.kern, l.cq, l.fin, l.pend])
      | (simp [upd_ne _ _ hcc, l.sq, l.kern, l.cq, l.fin, l.pend])
  | crash w hw =>
    refine ⟨_, _, hr.snoc (.other rfl (.crash u w (by rw [l.dev]; exact hw))), rfl, ?_⟩
    exact ⟨rfl, fun _ => rfl, fun _ => rfl, fun _ => rfl, fun _ => rfl, fun _ => rfl⟩

/-- C105, for the synchronous engine: the same. -/
theorem C105_sync {as : List (SyncIo.Act D)} {s : SyncIo.Sys D} (h : SyncRun v as s) :
    ∃ d, WDisk.Run (WDisk.fresh v) (as.flatMap SyncIo.Act.view) d := by
  have : ∃ us u, Run 1 false v us u ∧ us.flatMap Uring.Act.view = as.flatMap SyncIo.Act.view ∧ SyncIo.Like s u := by
    induction h with
    | nil => exact ⟨[], _, .nil, rfl, rfl, fun _ => rfl, fun _ => rfl, fun _ => rfl, fun _ => rfl, fun _ => rfl⟩
    | snoc _ hs ih =>
      obtain ⟨us, u, h1, h2, h3⟩ := ih
      obtain ⟨bs, u', h4, h5, h6⟩ := like h3 hs h1
      exact ⟨us ++ bs, u', h4, by simp [h2, h5], h6⟩
  obtain ⟨us, u, h1, h2, -⟩ := this
  rw [← h2]
  exact C105_uring h1

/-- The same but for what survives a power loss. -/
structure Below (s p : SyncIo.Sys D) : Prop where
  ch : s.ch = p.ch
  vol : s.dev.vol = p.dev.vol
  ops : s.dev.ops = p.dev.ops
  pers : ∀ x u, s.dev.pers x u → p.dev.pers x u

theorem Below.dev {d e : Disk D} (h1 : d.vol = e.vol) (h2 : d.ops = e.ops) : ∃ pe, d = { e with pers := pe } := by
  cases d; cases e; cases h1; cases h2; exact ⟨_, rfl⟩

theorem Below.step {s s' p : SyncIo.Sys D} {a : SyncIo.Act D} (b : Below s p) (h : SyncStep s a s') : ∃ p', SyncIo.Step p a p' ∧ Below s' p' := by
  obtain ⟨sd, sc⟩ := s
  obtain ⟨pd, pc⟩ := p
  obtain ⟨bc, bv, bo, bp⟩ := b
  dsimp only at bc bv bo bp
  subst bc
  obtain ⟨pe, rfl⟩ := Below.dev bv bo
  cases h with
  | done c id ok hc hm =>
    refine ⟨_, .done _ c id ok hc hm, rfl, ?_, ?_, ?_⟩
    · rw [complete_vol]; rfl
    · rw [complete_ops]; rfl
    · intro x u hu
      refine ⟨bp x u (complete_pers hu), fun snap hsn ht => ?_⟩
      have hop : pd.ops (c, id) = some (.flush snap) := hsn
      simp only [complete, hop] at hu
      exact hu.2 snap hop ht
  | other ha h =>
  cases h with
  | done => simp [innerSync] at ha
  | add c id r hc hf =>
    refine ⟨_, .add _ c id r hc hf, rfl, ?_, ?_, ?_⟩
    · cases r <;> rfl
    · cases r <;> rfl
    · intro x u hu
      cases r with
      | read => exact bp x u hu
      | write => exact hu.imp (bp x u) fun h => h
      | flush => exact bp x u hu
  | exec o x =>
    have he : ∀ q, Dev.exec { pd with pers := q } o x = { pd.exec o x with pers := q } := by
      intro q
      unfold Dev.exec
      dsimp only
      split
      · split <;> rfl
      · split <;> rfl
      · rfl
    refine ⟨_, .exec _ o x, rfl, ?_, ?_, ?_⟩
    · dsimp only; rw [he pe]
    · dsimp only; rw [he pe]
    · intro y u hu
      dsimp only at hu ⊢
      rw [he pe] at hu
      have := he pd.pers
      rw [show pd.exec o x = { pd.exec o x with pers := pd.pers } from this]
      exact bp y u hu
  | poll c hc => exact ⟨_, .poll _ c hc, rfl, rfl, rfl, bp⟩
  | crash w hw => exact ⟨_, .crash _ w fun x => bp x _ (hw x), rfl, rfl, rfl, fun _ _ h => h⟩

/-- C105: with the synchronous engine, which does ask for `fsync`, nothing is given up for write-through: every history is one of the same
engine without it, so whatever holds of disks with a cache (C63 and all that rests on it) holds here as well. -/
theorem C105_sync_plain {as : List (SyncIo.Act D)} {s : SyncIo.Sys D} (h : SyncRun v as s) : ∃ p, SyncIo.Run v as p := by
  have : ∃ p, SyncIo.Run v as p ∧ Below s p := by
    induction h with
    | nil => exact ⟨_, .nil, rfl, rfl, rfl, fun _ _ h => h⟩
    | snoc _ hs ih =>
      obtain ⟨p, h1, h2⟩ := ih
      obtain ⟨p', h3, h4⟩ := h2.step hs
      exact ⟨p', h1.snoc h3, h4⟩
  obtain ⟨p, hp, -⟩ := this
  exact ⟨p, hp⟩

theorem lasts {d : WDisk D} {es e0 e1 e2 e3 e4 : List (Ev D)} {q w off cnt q' r off' cnt' x : Nat} {data : Nat → D} {out out' : List (Option D)}
    (h : WDisk.Run (WDisk.fresh v) es d)
    (he : es = (e0 ++ Ev.issue q w (.write off cnt data) :: e1 ++ [Ev.resp q w true out]) ++
      (e2 ++ ((Ev.issue q' r (.read off' cnt') :: e3 ++ [Ev.resp q' r true out']) ++ e4)))
    (h0 : settledWrites e0 x) (h1 : quiet e1 x) (ho1 : unanswered (q, w) e1) (h2 : quiet e2 x) (h3 : quiet e3 x) (ho3 : unanswered (q', r) e3)
    (hx : covers off cnt x) (hx' : covers off' cnt' x) : out'[x - off']? = some (some (data x)) := by
  subst he
  obtain ⟨m1, g1, g2⟩ := h.split _ _ rfl
  obtain ⟨m2, g3, g4⟩ := g2.split _ _ rfl
  obtain ⟨m3, g5, -⟩ := g4.split _ _ rfl
  have hd := (Durable.write g1 rfl h0 h1 ho1 hx).wrun g3 h2
  obtain ⟨p, g6⟩ := g5.plain (by
    intro e hm
    simp only [List.cons_append, List.mem_cons, List.mem_append, List.not_mem_nil, or_false] at hm
    rcases hm with rfl | hm | rfl
    · simp
    · exact (ho3 e hm).2
    · simp)
  exact hd.toRest.read g6 h3 ho3 hx'

/-- C105: a write answered with success by an io_uring device opened for write-through lasts. With no other write to the sector in flight beside
it and none after it, whatever happens then, power losses and failures included and no flush needed, every read of the sector that succeeds
returns its data. -/
theorem C105_lasts {as : List (Uring.Act D)} {s : Uring.Sys D} {e0 e1 e2 e3 e4 : List (Ev D)} {q w off cnt q' r off' cnt' x : Nat}
    {data : Nat → D} {out out' : List (Option D)} (h : Run cap sync v as s)
    (he : as.flatMap Uring.Act.view = (e0 ++ Ev.issue q w (.write off cnt data) :: e1 ++ [Ev.resp q w true out]) ++
      (e2 ++ ((Ev.issue q' r (.read off' cnt') :: e3 ++ [Ev.resp q' r true out']) ++ e4)))
    (h0 : settledWrites e0 x) (h1 : quiet e1 x) (ho1 : unanswered (q, w) e1) (h2 : quiet e2 x) (h3 : quiet e3 x) (ho3 : unanswered (q', r) e3)
    (hx : covers off cnt x) (hx' : covers off' cnt' x) : out'[x - off']? = some (some (data x)) := by
  obtain ⟨d, hd⟩ := C105_uring h
  exact lasts hd he h0 h1 ho1 h2 h3 ho3 hx hx'

/-- C105, for the synchronous engine: the same. -/
theorem C105_lasts_sync {as : List (SyncIo.Act D)} {s : SyncIo.Sys D} {e0 e1 e2 e3 e4 : List (Ev D)} {q w off cnt q' r off' cnt' x : Nat}
    {data : Nat → D} {out out' : List (Option D)} (h : SyncRun v as s)
    (he : as.flatMap SyncIo.Act.view = (e0 ++ Ev.issue q w (.write off cnt data) :: e1 ++ [Ev.resp q w true out]) ++
      (e2 ++ ((Ev.issue q' r (.read off' cnt') :: e3 ++ [Ev.resp q' r true out']) ++ e4)))
    (h0 : settledWrites e0 x) (h1 : quiet e1 x) (ho1 : unanswered (q, w) e1) (h2 : quiet e2 x) (h3 : quiet e3 x) (ho3 : unanswered (q', r) e3)
    (hx : covers off cnt x) (hx' : covers off' cnt' x) : out'[x - off']? = some (some (data x)) := by
  obtain ⟨d, hd⟩ := C105_sync h
  exact lasts hd he h0 h1 ho1 h2 h3 ho3 hx hx'

/-- A write, a power loss and a read, with no flush between, are a history of the io_uring device. -/
example : ∃ s, Run 4 true (fun _ : Nat => (0 : Nat))
    [.add 0 7 (.write 5 1 fun _ => 42), .submit 0 1, .exec (0, 7) 5, .done 0 7 512, .poll 0 [(7, true, [])], .crash,
     .add 1 7 (.read 5 1), .submit 1 1, .exec (1, 7) 5, .done 1 7 512, .poll 1 [(7, true, [some 42])]] s := by
  have h1 := (Run.nil (cap := 4) (sync := true) (v := fun _ : Nat => (0 : Nat))).snoc
    (.other rfl (.add _ 0 7 (.write 5 1 fun _ => 42) (by simp [Sys.fresh, Chan.new, Chan.outstanding])))
  have h2 := h1.snoc (.other rfl (.submit _ 0 1 (by simp [Chan.add, Sys.fresh, Chan.new, isFlush]) (by simp [Chan.add, Sys.fresh, Chan.new, isFlush])))
  have h3 := h2.snoc (.other rfl (.exec _ (0, 7) 5))
  have h4 := h3.snoc (.done _ 0 7 512 (.write 5 1 (fun _ => 42) (upd (fun _ => false) 5 true)) rfl (by
    intro _ x hx
    have : x = 5 := by obtain ⟨_, _⟩ := hx; omega
    subst this; rfl))
  have h5 := h4.snoc (.other rfl (.poll _ 0))
  have h6 := h5.snoc (.other rfl (.crash _ (fun x => if x = 5 then 42 else 0) (by
    intro x
    by_cases hx : x = 5
    · subst hx
      exact ⟨.inr ⟨⟨Nat.le_refl _, by decide⟩, rfl⟩, fun _ => .inl rfl⟩
    · refine ⟨.inl (if_neg hx), fun hc => absurd ?_ hx⟩
      obtain ⟨_, _⟩ := hc
      omega)))
  have h7 := h6.snoc (.other rfl (.add _ 1 7 (.read 5 1) (by simp [upd, Sys.fresh, Chan.new, Chan.outstanding])))
  have h8 := h7.snoc (.other rfl (.submit _ 1 1 (by simp [upd, Chan.add, Sys.fresh, Chan.new, isFlush]) (by simp [upd, Chan.add, Sys.fresh, Chan.new, isFlush])))
  have h9 := h8.snoc (.other rfl (.exec _ (1, 7) 5))
  have h10 := h9.snoc (.done _ 1 7 512 (.read 5 1 (upd (fun _ => none) 5 (some 42))) rfl (by
    intro _ x hx
    have : x = 5 := by obtain ⟨_, _⟩ := hx; omega
    subst this; simp))
  have h11 := h10.snoc (.other rfl (.poll _ 1))
  exact ⟨_, h11⟩

/-- A write, a power loss and a read are a history of the synchronous device. -/
example : ∃ s, SyncRun (fun _ : Nat => (0 : Nat))
    [.add 0 7 (.write 5 1 fun _ => 42), .exec (0, 7) 5, .done 0 7 true, .poll 0 [(7, true, [])], .crash,
     .add 0 8 (.read 5 1), .exec (0, 8) 5, .done 0 8 true, .poll 0 [(8, true, [some 42])]] s := by
  have h1 := (SyncRun.nil (v := fun _ : Nat => (0 : Nat))).snoc (.other rfl (.add _ 0 7 (.write 5 1 fun _ => 42) rfl (by simp [SyncIo.Sys.fresh])))
  have h2 := h1.snoc (.other rfl (.exec _ (0, 7) 5))
  have h3 := h2.snoc (.done _ 0 7 true rfl ⟨.write 5 1 (fun _ => 42) (upd (fun _ => false) 5 true), rfl, by
    intro _ x hx
    have : x = 5 := by obtain ⟨_, _⟩ := hx; omega
    subst this; rfl⟩)
  have h4 := h3.snoc (.other rfl (.poll _ 0 rfl))
  have h5 := h4.snoc (.other rfl (.crash _ (fun x => if x = 5 then 42 else 0) (by
    intro x
    by_cases hx : x = 5
    · subst hx
      exact ⟨.inr ⟨⟨Nat.le_refl _, by decide⟩, rfl⟩, fun _ => .inl rfl⟩
    · refine ⟨.inl (if_neg hx), fun hc => absurd ?_ hx⟩
      obtain ⟨_, _⟩ := hc
      omega)))
  have h6 := h5.snoc (.other rfl (.add _ 0 8 (.read 5 1) rfl (by simp [SyncIo.Sys.fresh])))
  have h7 := h6.snoc (.other rfl (.exec _ (0, 8) 5))
  have h8 := h7.snoc (.done _ 0 8 true rfl ⟨.read 5 1 (upd (fun _ => none) 5 (some 42)), rfl, by
    intro _ x hx
    have : x = 5 := by obtain ⟨_, _⟩ := hx; omega
    subst this; simp⟩)
  have h9 := h8.snoc (.other rfl (.poll _ 0 rfl))
  exact ⟨_, h9⟩

/-- The histories above meet the hypotheses on what the user sees. -/
example : settledWrites ([] : List (Ev Nat)) 5 ∧ quiet ([] : List (Ev Nat)) 5 ∧ quiet [(.crash : Ev Nat)] 5 ∧ unanswered (0, 7) ([] : List (Ev Nat)) ∧
    covers 5 1 5 := by
  refine ⟨fun a b _ _ _ _ _ h => ?_, quiet_nil 5, ?_, fun e he => absurd he (List.not_mem_nil), Nat.le_refl _, by decide⟩
  · cases a <;> cases h
  · intro _ _ _ _ _ h
    simp at h

/-- C105: a flush does nothing with write-through on the io_uring engine. A read may see the data of a write still in flight; a flush that is
asked for after that and succeeds does not make them last, as it would on a disk with a cache. -/
theorem C105_flush_does_nothing : ∃ s, Run 4 true (fun _ : Nat => (0 : Nat))
    [.add 0 7 (.write 5 1 fun _ => 42), .submit 0 1, .exec (0, 7) 5,
     .add 1 1 (.read 5 1), .submit 1 1, .exec (1, 1) 5, .done 1 1 512, .poll 1 [(1, true, [some 42])],
     .add 1 2 .flush, .poll 1 [(2, true, [])], .crash,
     .add 1 3 (.read 5 1), .submit 1 1, .exec (1, 3) 5, .done 1 3 512, .poll 1 [(3, true, [some 0])]] s := by
  have h1 := (Run.nil (cap := 4) (sync := true) (v := fun _ : Nat => (0 : Nat))).snoc
    (.other rfl (.add _ 0 7 (.write 5 1 fun _ => 42) (by simp [Sys.fresh, Chan.new, Chan.outstanding])))
  have h2 := h1.snoc (.other rfl (.submit _ 0 1 (by simp [Chan.add, Sys.fresh, Chan.new, isFlush]) (by simp [Chan.add, Sys.fresh, Chan.new, isFlush])))
  have h3 := h2.snoc (.other rfl (.exec _ (0, 7) 5))
  have h4 := h3.snoc (.other rfl (.add _ 1 1 (.read 5 1) (by simp [upd, Sys.fresh, Chan.new, Chan.outstanding])))
  have h5 := h4.snoc (.other rfl (.submit _ 1 1 (by simp [upd, Chan.add, Sys.fresh, Chan.new, isFlush]) (by simp [upd, Chan.add, Sys.fresh, Chan.new, isFlush])))
  have h6 := h5.snoc (.other rfl (.exec _ (1, 1) 5))
  have h7 := h6.snoc (.done _ 1 1 512 (.read 5 1 (upd (fun _ => none) 5 (some 42))) rfl (by
    intro _ x hx
    have : x = 5 := by obtain ⟨_, _⟩ := hx; omega
    subst this; simp))
  have h8 := h7.snoc (.other rfl (.poll _ 1))
  have h9 := h8.snoc (.other rfl (.add _ 1 2 .flush (by
    simp [upd, Sys.fresh, Chan.new, Chan.outstanding, Chan.poll, Chan.post, Chan.add, Chan.take, Chan.submitted, isFlush])))
  have h10 := h9.snoc (.other rfl (.poll _ 1))
  have h11 := h10.snoc (.other rfl (.crash _ (fun _ => 0) (fun x => ⟨.inl rfl, fun _ h => by cases h⟩)))
  have h12 := h11.snoc (.other rfl (.add _ 1 3 (.read 5 1) (by simp [upd, Sys.fresh, Chan.new, Chan.outstanding])))
  have h13 := h12.snoc (.other rfl (.submit _ 1 1 (by simp [upd, Chan.add, Sys.fresh, Chan.new, isFlush]) (by simp [upd, Chan.add, Sys.fresh, Chan.new, isFlush])))
  have h14 := h13.snoc (.other rfl (.exec _ (1, 3) 5))
  have h15 := h14.snoc (.done _ 1 3 512 (.read 5 1 (upd (fun _ => none) 5 (some 0))) rfl (by
    intro _ x hx
    have : x = 5 := by obtain ⟨_, _⟩ := hx; omega
    subst this; simp))
  have h16 := h15.snoc (.other rfl (.poll _ 1))
  exact ⟨_, h16⟩

end Verif.WriteThrough
