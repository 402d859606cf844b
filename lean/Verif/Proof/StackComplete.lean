import Verif.Proof.StackSim
import Verif.Proof.UringRefine

/-! The converse of `open_closed` and of `C63_uring`: what the closed model and the plain disk can do, the layers can. This is what
shows that the hypotheses of C65 are met by more than a few runs. -/

set_option maxRecDepth 8000

namespace Verif.Uring
open Verif.Disk

variable {D : Type} {cap : Nat} {v : Nat → D}

/-- Everything a plain disk can show, the io_uring engine can: users submit at once and poll when something is there. -/
theorem complete_run (hcap : 0 < cap) {es : List (Ev D)} {d0 d : Disk D} (h : Disk.Run d0 es d) (h0 : d0 = Dev.fresh v) :
    ∃ as s, Run cap false true v as s ∧ as.flatMap Act.view = es ∧ s.dev = d ∧
      ∀ c, (s.ch c).sq = [] ∧ (s.ch c).cq = [] ∧ (s.ch c).finished = [] ∧ (s.ch c).pending = 0 := by
  induction h with
  | nil => subst h0; exact ⟨[], _, .nil, rfl, rfl, fun _ => ⟨rfl, rfl, rfl, rfl⟩⟩
  | snoc _ hs ih =>
    obtain ⟨as, s, h1, h2, h3, h4⟩ := ih
    subst h3
    cases hs with
    | issue c id r hn =>
      obtain ⟨q1, q2, q3, q4⟩ := h4 c
      have hout : ¬ (s.ch c).outstanding id := by
        rintro (h | h | h | h)
        · rw [q1] at h; cases h
        · exact ((Held.run h1).kern c id).1 h hn
        · rw [q2] at h; cases h
        · rw [q3] at h; cases h
      have e1 : (s.ch c).add cap false id r = { s.ch c with sq := [(id, r)], pending := 1 } := by
        unfold Chan.add
        rw [q1, q4]
        simp
        omega
      have r1 := h1.snoc (.add s c id r hout)
      have r2 := r1.snoc (.submit _ c 1 (by simp [e1]) (by simp [e1]))
      refine ⟨_, _, r2, by simp [h2, Act.view], by simp [e1, issueAll], fun c' => ?_⟩
      by_cases hc : c' = c
      · subst hc; simp [e1, Chan.take, Chan.submitted, q2, q3]
      · simp only [upd_ne _ _ hc]; exact h4 c'
    | exec o x => exact ⟨_, _, h1.snoc (.exec s o x), by simp [h2, Act.view], rfl, h4⟩
    | respond c id ok hm =>
      obtain ⟨op, o1, o2⟩ := hm
      obtain ⟨q1, q2, q3, q4⟩ := h4 c
      have e : decide (0 ≤ (if ok then (0 : Int) else -1)) = ok := by cases ok <;> simp
      have r1 := h1.snoc (.done s c id (if ok then 0 else -1) op o1 fun _ hr => o2 (by cases ok <;> simp_all))
      have r2 := r1.snoc (.poll _ c)
      refine ⟨_, _, r2, ?_, ?_, fun c' => ?_⟩
      · simp [h2, Act.view, Chan.poll, Chan.post, q2, q3, report, e]
      · simp [e]
      · by_cases hc : c' = c
        · subst hc; simp [Chan.poll, Chan.post, q1, q4]
        · simp only [upd_ne _ _ hc]; exact h4 c'
    | crash w hw => exact ⟨_, _, h1.snoc (.crash s w hw), by simp [h2, Act.view], rfl, fun _ => ⟨rfl, rfl, rfl, rfl⟩⟩

end Verif.Uring

namespace Verif.Disk

variable {O E : Type} [DecidableEq O] {a : O → Nat × Nat} {un : Nat × Nat → Option O}

/-- The disk with requests addressed by channel and id instead of by owner. -/
def ren (un : Nat × Nat → Option O) (t : Dev O E) : Disk E :=
  { vol := t.vol, pers := t.pers, ops := fun p => (un p).bind t.ops }

/-- `un` undoes `a`. -/
structure Undo (a : O → Nat × Nat) (un : Nat × Nat → Option O) : Prop where
  left : ∀ o, un (a o) = some o
  right : ∀ p o, un p = some o → p = a o

theorem ren_ops (h : Undo a un) (t : Dev O E) (o : O) : (ren un t).ops (a o) = t.ops o := by simp [ren, h.left]

theorem ren_upd (h : Undo a un) (g : O → Option (Op E)) (o : O) (x : Option (Op E)) :
    (fun p => (un p).bind (upd g o x)) = upd (fun p => (un p).bind g) (a o) x := by
  funext p
  by_cases e : p = a o
  · subst e; simp [h.left]
  · rw [upd_ne _ _ e]
    cases hu : un p with
    | none => rfl
    | some o' =>
      have : o' ≠ o := by
        rintro rfl
        exact e (h.right _ _ hu)
      simp [upd_ne _ _ this]

theorem ren_inflight (h : Undo a un) (t : Dev O E) (x : Nat) (v : E) : (ren un t).inflight x v ↔ t.inflight x v := by
  constructor
  · rintro ⟨p, off, cnt, data, done, h1, h2⟩
    cases hu : un p with
    | none => simp [ren, hu] at h1
    | some o => exact ⟨o, off, cnt, data, done, by simpa [ren, hu] using h1, h2⟩
  · rintro ⟨o, off, cnt, data, done, h1, h2⟩
    exact ⟨a o, off, cnt, data, done, by rw [ren_ops h]; exact h1, h2⟩

theorem ren_issue (h : Undo a un) (t : Dev O E) (o : O) (r : Req E) : ren un (t.issue o r) = Disk.issue (ren un t) (a o) r := by
  cases r with
  | read off cnt =>
    simp only [ren, Dev.issue, Dev.issueRead, Disk.issue, ren_upd h]
  | write off cnt data =>
    simp only [ren, Dev.issue, Dev.issueWrite, Disk.issue, ren_upd h]
    congr 2
    funext p
    cases un p <;> rfl
  | flush =>
    have : ∀ x v, (ren un t).inflight x v = t.inflight x v := fun x v => propext (ren_inflight h t x v)
    simp only [Dev.issue, Dev.issueFlush, Disk.issue, this]
    simp only [ren, ren_upd h]

theorem ren_exec (h : Undo a un) (t : Dev O E) (o : O) (x : Nat) : ren un (t.exec o x) = Dev.exec (ren un t) (a o) x := by
  unfold Dev.exec
  rw [ren_ops h]
  split
  · split
    · simp only [ren, ren_upd h]
    · rfl
  · split
    · simp only [ren, ren_upd h]
    · rfl
  · rfl

theorem ren_complete (h : Undo a un) (t : Dev O E) (o : O) (ok : Bool) : ren un (t.complete o ok) = Dev.complete (ren un t) (a o) ok := by
  unfold Dev.complete
  rw [ren_ops h]
  simp only [ren, ren_upd h]

theorem ren_may (h : Undo a un) {t : Dev O E} {o : O} {ok : Bool} (hm : t.mayComplete o ok) : Dev.mayComplete (ren un t) (a o) ok := by
  obtain ⟨op, h1, h2⟩ := hm
  exact ⟨op, by rw [ren_ops h]; exact h1, h2⟩

theorem ren_result (h : Undo a un) (t : Dev O E) (o : O) (ok : Bool) : Dev.result (ren un t) (a o) ok = t.result o ok := by
  unfold Dev.result; rw [ren_ops h]

theorem ren_fresh (v : Nat → E) : ren un (Dev.fresh v : Dev O E) = Dev.fresh v := by
  simp only [ren, Dev.fresh]
  congr 1
  funext p
  cases un p <;> rfl

end Verif.Disk

namespace Verif.Stack
open Verif Verif.Metadata Verif.Disk Verif.Lazy

variable {D : Type} {c : Cfg D}

def unaddr : Nat × Nat → Option Owner
  | (0, k) => some (.fetch k)
  | (q + 1, id) => some (.guest q id)

def unmaddr : Nat × Nat → Option Nat
  | (0, k) => some k
  | (_ + 1, _) => none

theorem undo_addr : Undo addr unaddr := by
  refine ⟨fun o => by cases o <;> rfl, fun p o h => ?_⟩
  obtain ⟨q, id⟩ := p
  cases q <;> (simp only [unaddr, Option.some.injEq] at h; subst h; rfl)

theorem undo_maddr : Undo maddr unmaddr := by
  refine ⟨fun o => rfl, fun p o h => ?_⟩
  obtain ⟨q, id⟩ := p
  cases q with
  | zero => simp only [unmaddr, Option.some.injEq] at h; subst h; rfl
  | succ q => simp [unmaddr] at h

/-- Every submission is accepted. -/
def accepted : Act D → Bool
  | .processQueue _ b | .sourceDone _ _ b _ | .targetDone _ _ b | .startMeta b | .metaDone _ _ b => b
  | _ => true

/-- Runs of the closed model in which every submission is accepted. -/
inductive ARun (c : Cfg D) : Sys D → List (Lab D) → Sys D → Prop where
  | nil (s : Sys D) : ARun c s [] s
  | step {s s' s'' : Sys D} {ls ls' : List (Lab D)} {a : Act D} :
      ARun c s ls s' → Step c s' a ls' s'' → accepted a = true → ARun c s (ls ++ ls') s''
  | crash {s s' : Sys D} {ls : List (Lab D)} {tv : Nat → D} {mv : Nat → Bytes} {meta' : Meta} (buf0 : Nat → Nat → D) :
      ARun c s ls s' → s'.t.survives tv → s'.m.survives mv → fromBytes (devBytes c.msec mv) = .ok meta' →
      ARun c s (ls ++ [.ev .crash]) (Sys.boot c meta'.headers tv mv buf0)

theorem ARun.run {s s' : Sys D} {ls : List (Lab D)} (h : ARun c s ls s') : Lazy.Run c s ls s' := by
  induction h with
  | nil => exact .nil _
  | step _ hs _ ih => exact ih.step hs
  | crash b _ h1 h2 h3 ih => exact ih.crash b h1 h2 h3

/-- The open backend in state `s` with no completion waiting. -/
def calm (s : Sys D) : Host D := .up { s := s, tbox := fun _ => none, mbox := fun _ => none }

/-! ### Loading -/

theorem read_all {E : Type} (v : Nat → E) (n : Nat) (o : Nat × Nat) : ∀ i, i ≤ n →
    ∃ d, Disk.Run (Disk.issue (Dev.fresh v) o (.read 0 n)) [] d ∧ d.vol = v ∧ d.pers = (fun x w => w = v x) ∧
      ∃ got, d.ops o = some (.read 0 n got) ∧ (∀ x, x < i → got x = some (v x)) ∧ ∀ p, p ≠ o → d.ops p = none := by
  intro i
  induction i with
  | zero =>
    intro _
    exact ⟨_, .nil _, rfl, rfl, fun _ => none, upd_same .., fun x h => by omega, fun p hp => upd_ne _ _ hp⟩
  | succ i ih =>
    intro hi
    obtain ⟨d, h1, h2, h3, got, h4, h5, h6⟩ := ih (by omega)
    have hs := h1.snoc (.exec d o i)
    rw [List.append_nil] at hs
    refine ⟨_, hs, ?_⟩
    unfold Dev.exec
    rw [h4]
    simp only
    rw [if_pos ⟨by omega, by omega⟩]
    refine ⟨h2, h3, _, upd_same .., fun x hx => ?_, fun p hp => (upd_ne _ _ hp).trans (h6 p hp)⟩
    by_cases e : x = i
    · subst e; rw [upd_same, h2]
    · rw [upd_ne _ _ e]; exact h5 x (by omega)

theorem load_run {E : Type} (v : Nat → E) (n : Nat) :
    Disk.Run (Dev.fresh v) [.issue loaderAddr.1 loaderAddr.2 (.read 0 n), .resp loaderAddr.1 loaderAddr.2 true ((List.range n).map fun i => some (v i))]
      (Dev.fresh v) := by
  obtain ⟨d, h1, h2, h3, got, h4, h5, h6⟩ := read_all v n loaderAddr n (Nat.le_refl n)
  have r1 := (Disk.Run.nil (Dev.fresh v : Disk E)).snoc (.issue (Dev.fresh v) loaderAddr.1 loaderAddr.2 (.read 0 n) rfl)
  have hres : Dev.result d loaderAddr true = (List.range n).map fun i => some (v i) := by
    unfold Dev.result
    rw [h4]
    simp only [if_true]
    apply List.map_congr_left
    intro i hi
    rw [Nat.zero_add]
    exact h5 i (List.mem_range.1 hi)
  have hfin : Dev.complete d loaderAddr true = Dev.fresh v := by
    obtain ⟨vol, pers, ops⟩ := d
    simp only at h2 h3 h4 h6
    subst h2 h3
    simp only [Dev.complete, Dev.fresh, Dev.mk.injEq, true_and]
    refine ⟨?_, ?_⟩
    · funext x w
      rw [h4]
      simp
    · funext p
      by_cases e : p = loaderAddr
      · subst e; exact upd_same ..
      · rw [upd_ne _ _ e]; exact h6 p e
  have r2 : Disk.Run d [.resp loaderAddr.1 loaderAddr.2 true ((List.range n).map fun i => some (v i))] (Dev.fresh v) := by
    have := Disk.Run.one (Disk.Step.respond d loaderAddr.1 loaderAddr.2 true
      ⟨_, h4, fun _ x hx => by rw [h5 x (by obtain ⟨h1, h2⟩ := hx; omega)]; simp⟩)
    rw [show (loaderAddr.1, loaderAddr.2) = loaderAddr from rfl, hres, hfin] at this
    exact this
  have r3 := r1.trans (h1.trans r2)
  simpa using r3

/-! ### Steps -/

theorem issues_run {O E : Type} [DecidableEq O] {a : O → Nat × Nat} {un : Nat × Nat → Option O} (hu : Undo a un) {t : Dev O E}
    {l : List (O × Req E)} (h : HandedOk t l) :
    Disk.Run (ren un t) (l.map fun p => .issue (a p.1).1 (a p.1).2 p.2) (ren un (issueAll t l)) := by
  rcases h with rfl | ⟨p, rfl, hp⟩
  · exact .nil _
  · show Disk.Run _ [_] (ren un (t.issue p.1 p.2))
    rw [ren_issue hu]
    exact Disk.Run.one (.issue _ _ _ _ (by rw [show ((a p.1).1, (a p.1).2) = a p.1 from rfl, ren_ops hu]; exact hp))

theorem resp_one {O E : Type} [DecidableEq O] {a : O → Nat × Nat} {un : Nat × Nat → Option O} (hu : Undo a un) {t : Dev O E}
    {o : O} {ok : Bool} (h : t.mayComplete o ok) :
    Disk.Run (ren un t) [.resp (a o).1 (a o).2 ok (t.result o ok)] (ren un (t.complete o ok)) := by
  rw [ren_complete hu, ← ren_result hu]
  exact Disk.Run.one (.respond _ _ _ _ (ren_may hu h))

theorem box_back {O E : Type} [DecidableEq O] (o : O) (x : Option E) : upd (upd (fun _ => none) o x) o none = fun _ => (none : Option E) := by
  funext o'
  by_cases e : o' = o
  · subst e; exact upd_same ..
  · rw [upd_ne _ _ e, upd_ne _ _ e]

/-- The open backend in state `s`, its tables of requests right, and no completion waiting. -/
def Calm (s : Sys D) (h : Host D) : Prop := ∃ t m, h = calm (wd s t m) ∧ ∀ o, s.t.ops o = none ↔ t.ops o = none

theorem step_open {s s' : Sys D} {a : Act D} {ls' ls : List (Lab D)} {et : List (Ev D)} {em : List (Ev Bytes)} {hst : Host D} (hs : Sound c s)
    (h : Step c s a ls' s') (ha : accepted a = true) (hr : ORun c ls et em hst) (hcm : Calm s hst) :
    ∃ et' em' hst', ORun c (ls ++ ls') (et ++ et') (em ++ em') hst' ∧ Calm s' hst' ∧ Disk.Run (ren unaddr s.t) et' (ren unaddr s'.t) ∧
      Disk.Run (ren unmaddr s.m) em' (ren unmaddr s'.m) := by
  obtain ⟨t, m, rfl, ht⟩ := hcm
  have hcall : isCall a = true → ∃ et' em' hst', ORun c (ls ++ ls') (et ++ et') (em ++ em') hst' ∧ Calm s' hst' ∧
      Disk.Run (ren unaddr s.t) et' (ren unaddr s'.t) ∧ Disk.Run (ren unmaddr s.m) em' (ren unmaddr s'.m) := by
    intro hc
    obtain ⟨h1, h2, h3⟩ := call_wd hc h (t := t) (m := m) ht
    refine ⟨_, _, _, hr.step (.call { s := wd s t m, tbox := fun _ => none, mbox := fun _ => none } a ls' _ hc h1), ⟨_, _, rfl, ?_⟩, ?_, ?_⟩
    · rw [h2]; exact issueAll_ops _ ht
    · rw [h2]; exact issues_run undo_addr (handed_ok hs hc h)
    · rw [h3]; exact issues_run undo_maddr (handedMeta_ok hs h)
  cases h with
  | read => exact hcall rfl
  | write => exact hcall rfl
  | flush => exact hcall rfl
  | processQueue q b s' ls' h => cases b with
    | true => exact hcall rfl
    | false => cases ha
  | reportFinished => exact hcall rfl
  | imageDone => exact hcall rfl
  | receiveFetch => exact hcall rfl
  | receiveWritten => exact hcall rfl
  | autofetch => exact hcall rfl
  | startFetch => exact hcall rfl
  | sourceDone k ok b g s' ls' h => cases b with
    | true => exact hcall rfl
    | false => cases ha
  | takeFinished => exact hcall rfl
  | startMeta b s' h => cases b with
    | true => exact hcall rfl
    | false => cases ha
  | disconnect => exact hcall rfl
  | execData o x =>
    refine ⟨[], [], calm (wd s t m), by simpa only [List.append_nil] using hr, ⟨t, m, rfl, fun o' => (exec_ops s.t o o' x).trans (ht o')⟩, ?_, .nil _⟩
    rw [show ({ s with t := s.t.exec o x } : Sys D).t = s.t.exec o x from rfl, ren_exec undo_addr]
    exact Disk.Run.one (.exec _ _ _)
  | execMeta k x =>
    refine ⟨[], [], calm (wd s t m), by simpa only [List.append_nil] using hr, ⟨t, m, rfl, ht⟩, .nil _, ?_⟩
    rw [show ({ s with m := s.m.exec k x } : Sys D).m = s.m.exec k x from rfl, ren_exec undo_maddr]
    exact Disk.Run.one (.exec _ _ _)
  | baseDone q id ok h =>
    have r1 := hr.step (.deliver { s := wd s t m, tbox := fun _ => none, mbox := fun _ => none } (.guest q id) ok (s.t.result (.guest q id) ok) rfl)
    have r2 := r1.step (.handleGuest _ q id ok (s.t.result (.guest q id) ok) (upd_same ..))
    simp only [box_back, List.append_nil] at r2
    exact ⟨_, [], _, by rw [List.append_nil]; exact r2, ⟨t.complete (.guest q id) ok, m, rfl, complete_ops ht _ _⟩, resp_one undo_addr h, .nil _⟩
  | targetDone k ok b h => cases b with
    | false => cases ha
    | true =>
      have r1 := hr.step (.deliver { s := wd s t m, tbox := fun _ => none, mbox := fun _ => none } (.fetch k) ok (s.t.result (.fetch k) ok) rfl)
      have r2 := r1.step (.handleFetch _ k ok (s.t.result (.fetch k) ok) (upd_same ..))
      simp only [box_back, List.append_nil, List.append_assoc] at r2
      obtain ⟨w1, w2⟩ := targetDone_wd c s k ok t m
      obtain ⟨w3, -⟩ := targetDone_wd c s k ok s.t s.m
      rw [w1] at r2
      refine ⟨_, [], _, by simp only [List.append_nil]; exact r2, ⟨_, m, rfl, ?_⟩, (resp_one undo_addr h).trans ?_, ?_⟩
      · rw [w2]; exact issueAll_ops _ (complete_ops ht _ _)
      · rw [w2]
        refine issues_run undo_addr ?_
        split
        · exact .inr ⟨_, rfl, upd_same ..⟩
        · exact .inl rfl
      · have := congrArg (fun p => p.1.m) w3
        simp only [show wd s s.t s.m = s from rfl] at this
        rw [show (targetDone s k ok true).1.m = s.m from this]
        exact .nil _
  | metaDone k ok b h => cases b with
    | false => cases ha
    | true =>
      have r1 := hr.step (.deliverMeta { s := wd s t m, tbox := fun _ => none, mbox := fun _ => none } k ok (s.m.result k ok) rfl)
      have r2 := r1.step (.handleMeta _ k ok (s.m.result k ok) (upd_same ..))
      simp only [box_back, List.append_nil, List.append_assoc] at r2
      obtain ⟨w1, w2⟩ := metaDone_wd s k ok t m
      obtain ⟨w3, -⟩ := metaDone_wd s k ok s.t s.m
      rw [w1] at r2
      refine ⟨[], _, _, by simp only [List.append_nil]; exact r2, ⟨t, _, rfl, ?_⟩, ?_, (resp_one undo_maddr h).trans ?_⟩
      · rw [w2]; exact ht
      · rw [w2]; exact .nil _
      · have := congrArg (fun p : Sys D => p.m) w3
        simp only [show wd s s.t s.m = s from rfl] at this
        rw [show (metaDone s k ok true).m = _ from this]
        refine issues_run undo_maddr ?_
        split
        · exact .inr ⟨_, rfl, upd_same ..⟩
        · exact .inl rfl

theorem start_open {ls : List (Lab D)} {et : List (Ev D)} {em : List (Ev Bytes)} {tv : Nat → D} {mv : Nat → Bytes} {md : Meta}
    {b : Nat → Nat → D} (hr : ORun c ls et em .down) (h : fromBytes (devBytes c.msec mv) = .ok md) :
    ∃ em', ORun c ls et (em ++ em') (calm (Sys.boot c md.headers tv mv b)) ∧ Disk.Run (Dev.fresh mv) em' (Dev.fresh mv) := by
  have r1 := hr.step (OStep.start (c := c))
  have r2 := r1.step (OStep.loaded ((List.range c.msec).map fun i => some (mv i)) md tv mv b (by rw [bytesOf_load]; exact h))
  simp only [List.append_nil, List.append_assoc] at r2
  exact ⟨_, r2, load_run mv c.msec⟩

/-- **Every run of the closed model with accepted submissions is one of the open backend over plain disks.** -/
theorem closed_open {hdrs : Bytes} {tv : Nat → D} {mv : Nat → Bytes} {b0 : Nat → Nat → D} (hb : Bootable c hdrs mv) {ls : List (Lab D)}
    {s0 s : Sys D} (h : ARun c s0 ls s) (h0 : s0 = Sys.boot c hdrs tv mv b0) :
    ∃ et em hst, ORun c ls et em hst ∧ Calm s hst ∧ Disk.Run (Dev.fresh tv) et (ren unaddr s.t) ∧ Disk.Run (Dev.fresh mv) em (ren unmaddr s.m) := by
  induction h with
  | nil =>
    subst h0
    obtain ⟨md, h1, rfl⟩ := hb.load
    obtain ⟨em, r, hm⟩ := start_open (tv := tv) (b := b0) (c := c) .nil h1
    refine ⟨[], em, _, r, ⟨_, _, rfl, fun _ => Iff.rfl⟩, ?_, ?_⟩
    · rw [show (Sys.boot c md.headers tv mv b0).t = Dev.fresh tv from rfl, ren_fresh]; exact .nil _
    · rw [show (Sys.boot c md.headers tv mv b0).m = Dev.fresh mv from rfl, ren_fresh]; exact hm
  | step hr hs ha ih =>
    obtain ⟨et, em, hst, h1, hc, h2, h3⟩ := ih
    subst h0
    obtain ⟨et', em', hst', g1, g2, g3, g4⟩ := step_open ((Sound.boot hb).run hr.run) hs ha h1 hc
    exact ⟨_, _, _, g1, g2, h2.trans g3, h3.trans g4⟩
  | crash b hr h1 h2 h3 ih =>
    obtain ⟨et, em, hst, g1, -, g2, g3⟩ := ih
    obtain ⟨em', r, hm⟩ := start_open (b := b) (g1.step (.crash _)) h3
    refine ⟨_, _, _, r, ⟨_, _, rfl, fun _ => Iff.rfl⟩, ?_, ?_⟩
    · rw [show (Sys.boot c _ _ _ b).t = Dev.fresh _ from rfl, ren_fresh]
      exact g2.trans (Disk.Run.one (.crash _ _ h1))
    · rw [show (Sys.boot c _ _ _ b).m = Dev.fresh _ from rfl, ren_fresh]
      exact (g3.trans (Disk.Run.one (.crash _ _ h2))).trans hm

end Verif.Stack
