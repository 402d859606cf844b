import Verif.Model.WriteThrough
import Verif.Proof.WriteThroughTrace
import Verif.Proof.UringRefine

/-! The channels over a file opened with O_SYNC behave as a disk that writes through. -/

namespace Verif.WriteThrough
open Verif.Disk Verif.Uring

variable {D : Type} {cap : Nat} {sync : Bool} {v : Nat → D}

theorem complete_vol (d : Disk D) (o : Nat × Nat) (ok : Bool) : (complete d o ok).vol = d.vol := by
  unfold complete
  split
  · cases ok <;> rfl
  · rfl

theorem complete_ops (d : Disk D) (o : Nat × Nat) (ok : Bool) : (complete d o ok).ops = upd d.ops o none := by
  unfold complete
  split
  · cases ok <;> rfl
  · rfl

theorem complete_pers {d : Disk D} {o : Nat × Nat} {ok : Bool} {x : Nat} {u : D} (h : (complete d o ok).pers x u) : d.pers x u := by
  unfold complete at h
  split at h
  · cases ok
    · exact h
    · exact h.1
  · exact h.1

/-- A step is a step of `Model/Uring` but for what survives a power loss. -/
theorem Step.uring {s s' : Uring.Sys D} {a : Act D} (h : Step cap sync s a s') :
    ∃ s'', Uring.Step cap sync true s a s'' ∧ s''.ch = s'.ch ∧ s''.dev.ops = s'.dev.ops := by
  cases h with
  | other _ h => exact ⟨_, h, rfl, rfl⟩
  | done c id res op h hw => exact ⟨_, .done s c id res op h fun _ => hw, rfl, (complete_ops _ _ _).symm⟩

theorem held {as : List (Act D)} {s : Uring.Sys D} (h : Run cap sync v as s) : Held s := by
  induction h with
  | nil => exact Held.fresh
  | snoc _ hs ih =>
    obtain ⟨s'', h1, h2, h3⟩ := hs.uring
    have := ih.step h1
    exact ⟨fun c => by rw [← h2]; exact this.nodup c, fun c id => by rw [← h2, ← h3]; exact this.kern c id⟩

/-- Data of writes in flight may survive. -/
def FlyPers (d : Disk D) : Prop := ∀ x u, d.inflight x u → d.pers x u

theorem FlyPers.step {d d' : WDisk D} {es : List (Ev D)} (i : FlyPers d.dev) (h : WDisk.Step d es d') : FlyPers d'.dev := by
  rintro x u ⟨o, off, cnt, data, done, ho, hc, rfl⟩
  cases h with
  | issue c id r hn =>
    rcases issue_write_inv (d := d.dev) (o := (c, id)) (r := r) ho with ⟨rfl, rfl, -⟩ | ⟨-, ho⟩
    · exact .inr ⟨hc, rfl⟩
    · exact issue_pers (i x _ ⟨o, off, cnt, data, done, ho, hc, rfl⟩)
  | exec o' y =>
    obtain ⟨done', h, -⟩ := exec_write_inv ho
    simpa using i x _ ⟨o, off, cnt, data, done', h, hc, rfl⟩
  | settle o' off' cnt' data' done' ho' hf =>
    have hi : d.dev.inflight x (data x) := ⟨o, off, cnt, data, done, ho, hc, rfl⟩
    exact ⟨i x _ hi, fun _ => .inr hi⟩
  | respond c id ok hm hs =>
    have hne : o ≠ (c, id) := by
      intro he
      rw [he] at ho
      simp [Dev.leave] at ho
    simp only [Dev.leave, upd_ne _ _ hne] at ho
    exact i x _ ⟨o, off, cnt, data, done, ho, hc, rfl⟩
  | crash w hw => simp [WDisk.fresh, Dev.fresh] at ho

theorem FlyPers.run {d d' : WDisk D} {es : List (Ev D)} (h : WDisk.Run d es d') (i : FlyPers d.dev) : FlyPers d'.dev := by
  induction h with
  | nil => exact i
  | snoc _ hs ih => exact ih.step hs

theorem FlyPers.fresh (v : Nat → D) : FlyPers (WDisk.fresh v).dev := by
  rintro x u ⟨o, off, cnt, data, done, ho, -⟩
  simp [WDisk.fresh, Dev.fresh] at ho

/-- The same request; flushes are all alike. -/
def Alike (op op' : Op D) : Prop := op' = op ∨ ∃ s s', op = .flush s ∧ op' = .flush s'

theorem _root_.Verif.Uring.Same.alike {op op' : Op D} (h : Same op op') : Alike op op' := by
  rcases h with h | ⟨s, s', h, h', -⟩
  · exact .inl h
  · exact .inr ⟨s, s', h, h'⟩

theorem Alike.trans {a b c : Op D} (h1 : Alike a b) (h2 : Alike b c) : Alike a c := by
  rcases h1 with rfl | ⟨s, s', rfl, rfl⟩
  · exact h2
  · rcases h2 with rfl | ⟨t, t', -, rfl⟩
    · exact .inr ⟨s, s', rfl, rfl⟩
    · exact .inr ⟨s, t', rfl, rfl⟩

theorem Alike.finished {a b : Op D} (h : Alike a b) (hf : a.finished) : b.finished := by
  rcases h with rfl | ⟨s, s', rfl, rfl⟩
  · exact hf
  · trivial

theorem start_alike {r : Req D} {a b : Op D} (h : Start r a) (hs : Alike a b) : Start r b := by
  rcases hs with rfl | ⟨s, s', rfl, rfl⟩
  · exact h
  · cases r with
    | read => cases h
    | write => cases h
    | flush => exact ⟨s', rfl⟩

theorem result_alike {d d' : Disk D} {o : Nat × Nat} {ok : Bool} {a b : Op D} (h : d.ops o = some a) (h' : d'.ops o = some b)
    (hs : Alike a b) : Dev.result d' o ok = Dev.result d o ok := by
  rcases hs with rfl | ⟨s, s', rfl, rfl⟩
  · exact result_congr (by rw [h, h'])
  · simp only [Dev.result, h, h']

/-- Request `p.1` of channel `c` can be answered so. -/
def Answer (d : WDisk D) (c : Nat) (p : Nat × Bool × List (Option D)) : Prop :=
  ∃ op, d.dev.ops (c, p.1) = some op ∧ (p.2.1 = true → op.finished) ∧ p.2.2 = Dev.result d.dev (c, p.1) p.2.1 ∧
    ∀ off cnt data done, op = .write off cnt data done → p.2.1 = true → d.sure (c, p.1) = true

theorem Answer.congr {d d' : WDisk D} {c : Nat} {p : Nat × Bool × List (Option D)} (h : Answer d c p)
    (ho : d'.dev.ops (c, p.1) = d.dev.ops (c, p.1)) (hs : d.sure (c, p.1) = true → d'.sure (c, p.1) = true) : Answer d' c p := by
  obtain ⟨op, h1, h2, h3, h4⟩ := h
  exact ⟨op, by rw [ho, h1], h2, by rw [h3, result_congr ho], fun off cnt data done he ht => hs (h4 off cnt data done he ht)⟩

theorem Answer.same {d d' : WDisk D} {c : Nat} {p : Nat × Bool × List (Option D)} (h : Answer d c p)
    (ho : ∀ op, d.dev.ops (c, p.1) = some op → ∃ op', d'.dev.ops (c, p.1) = some op' ∧ Alike op op')
    (hs : d.sure (c, p.1) = true → d'.sure (c, p.1) = true) : Answer d' c p := by
  obtain ⟨op, h1, h2, h3, h4⟩ := h
  obtain ⟨op', h5, h6⟩ := ho op h1
  refine ⟨op', h5, fun ht => h6.finished (h2 ht), by rw [h3, result_alike h1 h5 h6], ?_⟩
  intro off cnt data done he ht
  rcases h6 with rfl | ⟨s, s', rfl, rfl⟩
  · exact hs (h4 off cnt data done he ht)
  · cases he

theorem answers (c : Nat) (l : List (Nat × Bool × List (Option D))) (d : WDisk D) (hn : (l.map Prod.fst).Nodup) (h : ∀ p ∈ l, Answer d c p) :
    ∃ d', WDisk.Run d (l.map fun p => .resp c p.1 p.2.1 p.2.2) d' ∧ d'.dev.vol = d.dev.vol ∧ d'.dev.pers = d.dev.pers ∧ d'.sure = d.sure ∧
      ∀ o, d'.dev.ops o = if o.1 = c ∧ o.2 ∈ l.map Prod.fst then none else d.dev.ops o := by
  induction l generalizing d with
  | nil => exact ⟨d, .nil _, rfl, rfl, rfl, fun o => by simp⟩
  | cons p l ih =>
    rw [List.map_cons, List.nodup_cons] at hn
    obtain ⟨op, h1, h2, h3, h4⟩ := h p (by simp)
    have hs := WDisk.Step.respond d c p.1 p.2.1 ⟨op, h1, h2⟩ fun off cnt data done ho ht => by
      rw [h1] at ho
      exact h4 off cnt data done (Option.some.inj ho) ht
    rw [← h3] at hs
    obtain ⟨d', g1, g2, g3, g5, g4⟩ := ih { d with dev := Dev.leave d.dev (c, p.1) } hn.2 (fun q hq => by
        refine (h q (by simp [hq])).congr (upd_ne _ _ ?_) id
        intro he
        have : q.1 = p.1 := by simpa using he
        exact hn.1 (this ▸ List.mem_map_of_mem hq))
    refine ⟨d', (WDisk.Run.one hs).trans g1, g2, g3, g5, ?_⟩
    rintro ⟨a, b⟩
    rw [g4]
    by_cases hab : a = c ∧ b = p.1
    · obtain ⟨rfl, rfl⟩ := hab
      simp [Dev.leave]
    · simp only [Dev.leave]
      rw [upd_ne _ _ (by simpa using hab)]
      have : (a = c ∧ b ∈ (p :: l).map Prod.fst) ↔ (a = c ∧ b ∈ l.map Prod.fst) := by
        simp only [List.map_cons, List.mem_cons]
        constructor
        · rintro ⟨h1, h2 | h2⟩
          · exact absurd ⟨h1, h2⟩ hab
          · exact ⟨h1, h2⟩
        · exact fun ⟨h1, h2⟩ => ⟨h1, .inr h2⟩
      simp only [this]

structure R (s : Uring.Sys D) (d : WDisk D) : Prop where
  vol : d.dev.vol = s.dev.vol
  pers : ∀ x u, s.dev.pers x u → d.dev.pers x u
  idle : ∀ c id, ¬(s.ch c).outstanding id → d.dev.ops (c, id) = none
  sq : ∀ c p, p ∈ (s.ch c).sq → ∃ op, d.dev.ops (c, p.1) = some op ∧ Start p.2 op
  kern : ∀ o op, s.dev.ops o = some op → ∃ op', d.dev.ops o = some op' ∧ Alike op op'
  cq : ∀ c e, e ∈ (s.ch c).cq → Answer d c (report e)
  fin : ∀ c p, p ∈ (s.ch c).finished → ∃ op, d.dev.ops (c, p.1) = some op ∧ (p.2 = true → ∃ snap, op = .flush snap)

theorem R.fresh : R (Uring.Sys.fresh v) (WDisk.fresh v) :=
  ⟨rfl, fun _ _ h => h, fun _ _ _ => rfl, by simp [Sys.fresh, Chan.new], by simp [Sys.fresh, Dev.fresh],
    by simp [Sys.fresh, Chan.new], by simp [Sys.fresh, Chan.new]⟩

theorem R.inflight {s : Uring.Sys D} {d : WDisk D} (r : R s d) {x : Nat} {u : D} (h : s.dev.inflight x u) : d.dev.inflight x u := by
  obtain ⟨o, off, cnt, data, done, h1, h2, h3⟩ := h
  obtain ⟨op', h4, h5⟩ := r.kern o _ h1
  rcases h5 with rfl | ⟨_, _, h5, -⟩
  · exact ⟨o, off, cnt, data, done, h4, h2, h3⟩
  · cases h5

/-- The kernel takes one request. -/
theorem R.take1 {s : Uring.Sys D} {d : WDisk D} (i : FlyPers d.dev) (r : R s d) {c id : Nat} {q : Req D} {rest : List (Nat × Req D)}
    {ch : Chan D} (hsq : (s.ch c).sq = (id, q) :: rest) (h1 : ch.sq = rest) (h2 : ch.kern = (s.ch c).kern ++ [id])
    (h3 : ch.cq = (s.ch c).cq) (h4 : ch.finished = (s.ch c).finished) :
    R { dev := s.dev.issue (c, id) q, ch := upd s.ch c ch } d := by
  obtain ⟨op0, ho0, hst⟩ := r.sq c (id, q) (by rw [hsq]; simp)
  have hfly : ∀ off cnt data, q = .write off cnt data → ∀ x, covers off cnt x → d.dev.inflight x (data x) := by
    rintro off cnt data rfl x hx
    exact ⟨(c, id), off, cnt, data, _, by rw [ho0, show op0 = _ from hst], hx, rfl⟩
  have hpers : ∀ x u, (s.dev.issue (c, id) q).pers x u → s.dev.pers x u ∨ d.dev.inflight x u := by
    intro x u hu
    cases q with
    | read => exact .inl hu
    | flush => exact .inl hu
    | write off cnt data =>
      rcases hu with hu | ⟨hc, rfl⟩
      · exact .inl hu
      · exact .inr (hfly off cnt data rfl x hc)
  refine ⟨by rw [r.vol, issue_vol'], ?_, ?_, ?_, ?_, ?_, ?_⟩
  · intro x u hu
    rcases hpers x u hu with h | h
    · exact r.pers x u h
    · exact i x u h
  · intro c' id' ho
    apply r.idle
    intro h
    apply ho
    refine upd_case (P := fun ch => Chan.outstanding ch id') (fun he => ?_) fun _ => h
    subst he
    simp only [Chan.outstanding, hsq, h1, h2, h3, h4, List.map_cons, List.mem_cons, List.mem_append, List.not_mem_nil, or_false] at h ⊢
    rcases h with (h | h) | h | h
    · exact .inr (.inl (.inr h))
    · exact .inl h
    · exact .inr (.inl (.inl h))
    · exact .inr (.inr h)
  · intro c' p
    refine upd_case (P := fun ch => p ∈ Chan.sq ch → _) (fun he => ?_) fun _ => r.sq c' p
    subst he
    rw [h1]
    exact fun hp => r.sq c' p (by rw [hsq]; simp [hp])
  · intro o op ho
    by_cases hne : o = (c, id)
    · subst hne
      refine ⟨op0, ho0, ?_⟩
      cases q with
      | read off cnt =>
        simp only [Disk.issue, Dev.issueRead, upd_same, Option.some.injEq] at ho
        exact .inl (by rw [← ho]; exact hst)
      | write off cnt data =>
        simp only [Disk.issue, ops_issueWrite_same, Option.some.injEq] at ho
        exact .inl (by rw [← ho]; exact hst)
      | flush =>
        simp only [Disk.issue, Dev.issueFlush, upd_same, Option.some.injEq] at ho
        obtain ⟨snap, rfl⟩ := hst
        exact .inr ⟨_, _, ho.symm, rfl⟩
    · cases hold : s.dev.ops o with
      | none => rw [issue_none _ _ hne hold] at ho; cases ho
      | some op1 =>
        obtain ⟨op', h5, h6⟩ := r.kern o op1 hold
        refine ⟨op', h5, ?_⟩
        obtain ⟨op2, h7, h8⟩ := issue_other s.dev q hne hold
        rw [ho] at h7
        obtain rfl := Option.some.inj h7
        rcases h8 with rfl | ⟨t, t', rfl, rfl, -⟩
        · exact h6
        · rcases h6 with rfl | ⟨_, t2, -, rfl⟩
          · exact .inr ⟨_, _, rfl, rfl⟩
          · exact .inr ⟨_, _, rfl, rfl⟩
  · intro c' e he
    have he' : e ∈ (s.ch c').cq := by
      revert he
      refine upd_case (P := fun ch => e ∈ Chan.cq ch → _) (fun hc => ?_) fun _ h => h
      subst hc; rw [h3]; exact fun h => h
    exact r.cq c' e he'
  · intro c' p hp
    apply r.fin c' p
    revert hp
    refine upd_case (P := fun ch => p ∈ Chan.finished ch → _) (fun hc => ?_) fun _ h => h
    subst hc; rw [h4]; exact fun h => h

theorem R.takes {d : WDisk D} (i : FlyPers d.dev) (c : Nat) (n : Nat) (s : Uring.Sys D) (r : R s d) (ch : Chan D) (h1 : ch.sq = (s.ch c).sq)
    (h2 : ch.kern = (s.ch c).kern) (h3 : ch.cq = (s.ch c).cq) (h4 : ch.finished = (s.ch c).finished) :
    R { dev := issueAll c s.dev ((s.ch c).sq.take n), ch := upd s.ch c (ch.take n) } d := by
  have zero : ∀ (s : Uring.Sys D) (ch : Chan D), R s d → ch.sq = (s.ch c).sq → ch.kern = (s.ch c).kern → ch.cq = (s.ch c).cq →
      ch.finished = (s.ch c).finished → R { dev := s.dev, ch := upd s.ch c ch } d := by
    intro s ch r h1 h2 h3 h4
    refine ⟨r.vol, r.pers, ?_, ?_, r.kern, ?_, ?_⟩
    · intro c' id' ho
      apply r.idle
      revert ho
      refine upd_case (P := fun ch => ¬Chan.outstanding ch id' → _) (fun he => ?_) fun _ => id
      subst he
      simp only [Chan.outstanding, h1, h2, h3, h4]; exact id
    · intro c' p
      refine upd_case (P := fun ch => p ∈ Chan.sq ch → _) (fun he => ?_) fun _ => r.sq c' p
      subst he; rw [h1]; exact r.sq c' p
    · intro c' p
      refine upd_case (P := fun ch => p ∈ Chan.cq ch → _) (fun he => ?_) fun _ => r.cq c' p
      subst he; rw [h3]; exact r.cq c' p
    · intro c' p
      refine upd_case (P := fun ch => p ∈ Chan.finished ch → _) (fun he => ?_) fun _ => r.fin c' p
      subst he; rw [h4]; exact r.fin c' p
  induction n generalizing s ch with
  | zero => exact zero s _ r (by simp [Chan.take, h1]) (by simp [Chan.take, h2]) h3 h4
  | succ n ih =>
    cases hsq : (s.ch c).sq with
    | nil =>
      refine zero s _ r ?_ ?_ h3 h4
      · simp [Chan.take, h1, hsq]
      · simp [Chan.take, h1, h2, hsq]
    | cons p rest =>
      have r1 := r.take1 (ch := { s.ch c with sq := rest, kern := (s.ch c).kern ++ [p.1] }) i hsq rfl rfl rfl rfl
      have := ih _ r1 { ch with sq := rest, kern := ch.kern ++ [p.1] } (by simp) (by simp [h2]) (by simp [h3]) (by simp [h4])
      simp only [upd_same, upd_upd] at this
      have e : Chan.take { ch with sq := rest, kern := ch.kern ++ [p.1] } n = ch.take (n + 1) := by
        simp only [Chan.take, h1, hsq, List.drop_succ_cons, List.take_succ_cons, List.map_cons, List.append_assoc, List.cons_append, List.nil_append]
      rw [e] at this
      exact this

/-- One step of the channels is some steps of the disk that writes through. -/
theorem R.step {s s' : Uring.Sys D} {d : WDisk D} {a : Act D} (hh : Held s) (r : R s d) (i : FlyPers d.dev)
    (h : Step cap sync s a s') : ∃ d', WDisk.Run d a.view d' ∧ R s' d' := by
  cases h with
  | done c id res op ho hw =>
    obtain ⟨op', h1, h2⟩ := r.kern _ op ho
    have hk : id ∈ (s.ch c).kern := (hh.kern c id).mpr (by rw [ho]; simp)
    have hid : ∀ c' id', id' ∉ (s.ch c').kern → (c', id') ≠ (c, id) := by
      intro c' id' hn he
      cases he
      exact hn hk
    have hdisj := fun c => List.nodup_append.mp (hh.nodup c)
    have hcq : ∀ c' e, e ∈ (s.ch c').cq → (c', e.1) ≠ (c, id) := fun c' e he => hid c' e.1 fun hc =>
      (List.nodup_append.mp (hdisj c').2.1).2.2 _ hc _ (List.mem_append_left _ (List.mem_map_of_mem he)) rfl
    -- the disk's own move
    have hmove : ∃ d', WDisk.Run d [] d' ∧ d'.dev.vol = d.dev.vol ∧ d'.dev.ops = d.dev.ops ∧
        (∀ o, d.sure o = true → d'.sure o = true) ∧
        (∀ x u, (complete s.dev (c, id) (decide (0 ≤ res))).pers x u → d'.dev.pers x u) ∧
        (∀ off cnt data done, op' = .write off cnt data done → decide (0 ≤ res) = true → d'.sure (c, id) = true) := by
      by_cases hok : 0 ≤ res
      · cases op' with
        | write off cnt data done =>
          have hop : op = .write off cnt data done := by
            rcases h2 with h2 | ⟨_, _, -, h2⟩
            · exact h2.symm
            · cases h2
          subst hop
          refine ⟨_, .one (.settle d (c, id) off cnt data done h1 (hw hok)), rfl, rfl, ?_, ?_, ?_⟩
          · intro o hs
            by_cases he : o = (c, id)
            · subst he; exact upd_same _ _ _
            · exact (upd_ne _ _ he).trans hs
          · intro x u hu
            simp only [complete, ho, hok, decide_true, if_true] at hu
            refine ⟨r.pers x u hu.1, fun hc => ?_⟩
            rcases hu.2 hc with h | h
            · exact .inl (by rw [r.vol]; exact h)
            · exact .inr (r.inflight h)
          · intros; exact upd_same _ _ _
        | read off cnt got => exact ⟨d, .nil _, rfl, rfl, fun _ h => h, fun x u hu => r.pers x u (complete_pers hu), fun _ _ _ _ h => by cases h⟩
        | flush snap => exact ⟨d, .nil _, rfl, rfl, fun _ h => h, fun x u hu => r.pers x u (complete_pers hu), fun _ _ _ _ h => by cases h⟩
      · exact ⟨d, .nil _, rfl, rfl, fun _ h => h, fun x u hu => r.pers x u (complete_pers hu), fun _ _ _ _ _ h => absurd (of_decide_eq_true h) hok⟩
    obtain ⟨d', g1, g2, g3, g4, g5, g6⟩ := hmove
    refine ⟨d', g1, ?_⟩
    refine ⟨by rw [g2, r.vol, complete_vol], g5, ?_, ?_, ?_, ?_, ?_⟩
    · intro c' id' h
      rw [g3]
      apply r.idle
      intro hc
      apply h
      refine upd_case (P := fun ch => Chan.outstanding ch id') (fun he => ?_) fun _ => hc
      subst he
      rw [← Chan.mem_ids, (post_ids _ _ _ _ hk).mem_iff, Chan.mem_ids]
      exact hc
    · intro c' p
      rw [g3]
      refine upd_case (P := fun ch => p ∈ Chan.sq ch → _) (fun he => ?_) fun _ => r.sq c' p
      subst he; exact r.sq c' p
    · intro o2 op2 ho2
      rw [complete_ops] at ho2
      rw [g3]
      by_cases he : o2 = (c, id)
      · subst he; rw [upd_same] at ho2; cases ho2
      · rw [upd_ne _ _ he] at ho2; exact r.kern o2 op2 ho2
    · intro c' e he
      have he' : (c' = c ∧ e = (id, res, s.dev.result (c, id) (decide (0 ≤ res)))) ∨ e ∈ (s.ch c').cq := by
        revert he
        refine upd_case (P := fun ch => e ∈ Chan.cq ch → _) (fun hc => ?_) fun _ h => .inr h
        subst hc
        simp only [Chan.post, List.mem_append, List.mem_singleton]
        rintro (h | h)
        · exact .inr h
        · exact .inl ⟨trivial, h⟩
      rcases he' with ⟨rfl, rfl⟩ | he'
      · refine ⟨op', by rw [g3]; exact h1, fun ht => h2.finished (hw (by simpa [report] using ht)),
          (result_alike ho (by rw [g3]; exact h1) h2).symm, fun off cnt data done he ht => g6 off cnt data done he ht⟩
      · exact (r.cq c' e he').congr (by rw [g3]) (g4 _)
    · intro c' p
      rw [g3]
      refine upd_case (P := fun ch => p ∈ Chan.finished ch → _) (fun he => ?_) fun _ => r.fin c' p
      subst he; exact r.fin c' p
  | other ha h =>
  cases h with
  | done => simp [inner] at ha
  | add c id q ho =>
    have hn := r.idle c id ho
    refine ⟨_, .one (.issue d c id q hn), ?_⟩
    have hne : ∀ {c' id'}, (s.ch c').outstanding id' → (c', id') ≠ (c, id) := by
      intro c' id' h he
      cases he
      exact ho h
    have hkne : ∀ {o op}, s.dev.ops o = some op → o ≠ (c, id) := by
      rintro ⟨a, b⟩ op hop
      exact hne (.inr (.inl ((hh.kern a b).mpr (by rw [hop]; simp))))
    have hout : ∀ c' id', ((upd s.ch c ((s.ch c).add cap sync id q)) c').outstanding id' ↔
        (c', id') = (c, id) ∨ (s.ch c').outstanding id' := by
      intro c' id'
      refine upd_case (P := fun ch => Chan.outstanding ch id' ↔ _) (fun he => ?_) fun he => by simp [he]
      subst he
      rw [← Chan.mem_ids, ← Chan.mem_ids, (add_ids _ _ _).mem_iff, List.mem_cons]
      simp
    have same : ∀ {c' id'} {op : Op D}, (s.ch c').outstanding id' → d.dev.ops (c', id') = some op →
        ∃ op', (d.dev.issue (c, id) q).ops (c', id') = some op' ∧ Alike op op' := fun h h' => by
      obtain ⟨op', h1, h2⟩ := issue_other d.dev q (hne h) h'
      exact ⟨op', h1, h2.alike⟩
    refine ⟨by rw [issue_vol', r.vol], fun x u hu => issue_pers (r.pers x u hu), ?_, ?_, ?_, ?_, ?_⟩
    · intro c' id' h
      rw [hout] at h
      refine issue_none d.dev q (fun he => h (.inl he)) (r.idle c' id' fun hc => h (.inr hc))
    · intro c' p hp
      have hp' : (c' = c ∧ p = (id, q)) ∨ p ∈ (s.ch c').sq := by
        revert hp
        refine upd_case (P := fun ch => p ∈ Chan.sq ch → _) (fun he => ?_) fun _ h => .inr h
        subst he
        unfold Chan.add
        split
        · exact fun h => .inr h
        split
        · exact fun h => .inr h
        · simp only [List.mem_append, List.mem_singleton]
          rintro (h | h)
          · exact .inr h
          · exact .inl ⟨trivial, h⟩
      rcases hp' with ⟨rfl, rfl⟩ | hp'
      · exact issue_start d.dev _ q
      · obtain ⟨op, h1, h2⟩ := r.sq c' p hp'
        obtain ⟨op', h3, h4⟩ := same (.inl (List.mem_map_of_mem hp')) h1
        exact ⟨op', h3, start_alike h2 h4⟩
    · intro o op hop
      obtain ⟨op', h1, h2⟩ := r.kern o op hop
      obtain ⟨op'', h3, h4⟩ := issue_other d.dev q (hkne hop) h1
      exact ⟨op'', h3, h2.trans h4.alike⟩
    · intro c' e he
      have he' : e ∈ (s.ch c').cq := by
        revert he
        refine upd_case (P := fun ch => e ∈ Chan.cq ch → _) (fun hc => ?_) fun _ h => h
        subst hc
        unfold Chan.add
        split
        · exact fun h => h
        split <;> exact fun h => h
      have hout' : (s.ch c').outstanding e.1 := .inr (.inr (.inl (List.mem_map_of_mem he')))
      exact (r.cq c' e he').same (fun op h => same hout' h) fun h => (upd_ne _ _ (hne hout')).trans h
    · intro c' p hp
      have hp' : (c' = c ∧ p.1 = id ∧ (p.2 = true → isFlush q = true)) ∨ p ∈ (s.ch c').finished := by
        revert hp
        refine upd_case (P := fun ch => p ∈ Chan.finished ch → _) (fun he => ?_) fun _ h => .inr h
        subst he
        unfold Chan.add
        split
        · rename_i hf
          simp only [List.mem_append, List.mem_singleton]
          rintro (h | rfl)
          · exact .inr h
          · exact .inl ⟨trivial, rfl, fun _ => (Bool.and_eq_true_iff.mp hf).2⟩
        split
        · simp only [List.mem_append, List.mem_singleton]
          rintro (h | rfl)
          · exact .inr h
          · exact .inl ⟨trivial, rfl, fun h => by cases h⟩
        · exact fun h => .inr h
      rcases hp' with ⟨rfl, rfl, hfl⟩ | hp'
      · obtain ⟨op, h1, h2⟩ := issue_start d.dev (c', p.1) q
        refine ⟨op, h1, fun ht => ?_⟩
        have hq := hfl ht
        cases q with
        | read => simp [isFlush] at hq
        | write => simp [isFlush] at hq
        | flush => exact h2
      · obtain ⟨op, h1, h2⟩ := r.fin c' p hp'
        obtain ⟨op', h3, h4⟩ := same (.inr (.inr (.inr (List.mem_map_of_mem hp')))) h1
        refine ⟨op', h3, fun hp => ?_⟩
        obtain ⟨snap, rfl⟩ := h2 hp
        rcases h4 with rfl | ⟨_, t, -, rfl⟩
        · exact ⟨_, rfl⟩
        · exact ⟨_, rfl⟩
  | idle c h0 => exact ⟨d, .nil _, r⟩
  | submit c n hp hn => exact ⟨d, .nil _, r.takes i c n s (s.ch c).submitted rfl rfl rfl rfl⟩
  | submitErr c hp =>
    refine ⟨d, .nil _, ?_⟩
    have := r.takes i c 0 s (s.ch c).submitted rfl rfl rfl rfl
    simpa [issueAll, Chan.take] using this
  | exec o x =>
    cases hop : s.dev.ops o with
    | none =>
      refine ⟨d, .nil _, ?_⟩
      rw [show s.dev.exec o x = s.dev by simp [Dev.exec, hop]]
      exact r
    | some op =>
      obtain ⟨op', h1, h2⟩ := r.kern o op hop
      rcases h2 with rfl | ⟨t, t', rfl, rfl⟩
      · refine ⟨_, .one (.exec d o x), ?_⟩
        have hother : ∀ {o'}, o' ≠ o → (d.dev.exec o x).ops o' = d.dev.ops o' := fun h => ops_exec_ne d.dev x h
        have hk : ∀ {c id}, s.dev.ops (c, id) = none → (d.dev.exec o x).ops (c, id) = d.dev.ops (c, id) := by
          intro c id hn
          refine hother fun he => ?_
          rw [he, hop] at hn; cases hn
        have hnk : ∀ {c id}, id ∉ (s.ch c).kern → (d.dev.exec o x).ops (c, id) = d.dev.ops (c, id) := by
          intro c id hn
          refine hk (Classical.byContradiction fun hc => hn ((hh.kern c id).mpr hc))
        have hdisj := fun c => List.nodup_append.mp (hh.nodup c)
        have hv : (d.dev.exec o x).vol = (s.dev.exec o x).vol := by
          simp only [Dev.exec, hop, h1]
          cases op' with
          | read => simp only []; split <;> exact r.vol
          | write => simp only []; split
                     · rw [r.vol]
                     · exact r.vol
          | flush => exact r.vol
        refine ⟨hv, by simpa using r.pers, ?_, ?_, ?_, ?_, ?_⟩
        · intro c id ho
          have := r.idle c id ho
          exact (hnk fun hc => ho (.inr (.inl hc))).trans this
        · intro c p hp
          have := hnk (c := c) (id := p.1) fun hc => (hdisj c).2.2 _ (List.mem_map_of_mem hp) _ (List.mem_append_left _ hc) rfl
          dsimp only
          rw [this]
          exact r.sq c p hp
        · intro o2 op2 ho2
          by_cases he : o2 = o
          · subst he
            refine ⟨op2, ?_, .inl rfl⟩
            revert ho2
            simp only [Dev.exec, hop, h1]
            cases op' with
            | read => simp only []; split
                      · simp only [upd_same, r.vol]; exact fun h => h
                      · rw [hop, h1]; exact fun h => h
            | write => simp only []; split
                       · simp only [upd_same]; exact fun h => h
                       · rw [hop, h1]; exact fun h => h
            | flush => rw [hop, h1]; exact fun h => h
          · dsimp only at ho2 ⊢
            rw [ops_exec_ne _ _ he] at ho2 ⊢
            exact r.kern o2 op2 ho2
        · intro c e he
          have hx : e.1 ∉ (s.ch c).kern := fun hc =>
            (List.nodup_append.mp (hdisj c).2.1).2.2 _ hc _ (List.mem_append_left _ (List.mem_map_of_mem he)) rfl
          exact (r.cq c e he).congr (hnk hx) id
        · intro c p hp
          have hx : p.1 ∉ (s.ch c).kern := fun hc =>
            (List.nodup_append.mp (hdisj c).2.1).2.2 _ hc _ (List.mem_append_right _ (List.mem_map_of_mem hp)) rfl
          dsimp only
          rw [hnk hx]
          exact r.fin c p hp
      · refine ⟨d, .nil _, ?_⟩
        rw [show s.dev.exec o x = s.dev by simp [Dev.exec, hop]]
        exact r
  | poll c =>
    have hids : (s.ch c).poll.2.map Prod.fst = (s.ch c).finished.map Prod.fst ++ (s.ch c).cq.map Prod.fst := by
      simp [Chan.poll, List.map_append, List.map_map, Function.comp_def, report]
    have hnd := List.nodup_append.mp (hh.nodup c)
    have hnd2 := List.nodup_append.mp hnd.2.1
    have hmem : ∀ id, id ∈ (s.ch c).poll.2.map Prod.fst ↔ id ∈ (s.ch c).cq.map Prod.fst ∨ id ∈ (s.ch c).finished.map Prod.fst := by
      intro id
      rw [hids, List.mem_append]
      exact or_comm
    obtain ⟨d', g1, g2, g3, g5, g4⟩ := answers c (s.ch c).poll.2 d
      (by rw [hids, (List.perm_append_comm).nodup_iff]; exact hnd2.2.1)
      (by
        intro p hp
        simp only [Chan.poll, List.mem_append, List.mem_map] at hp
        rcases hp with ⟨q, hq, rfl⟩ | ⟨e, he, rfl⟩
        · obtain ⟨op, h1, h2⟩ := r.fin c q hq
          refine ⟨op, h1, fun ht => ?_, ?_, fun off cnt data done he ht => ?_⟩
          · obtain ⟨snap, rfl⟩ := h2 ht
            trivial
          · cases hb : q.2 with
            | false => simp only [Dev.result, h1]; cases op <;> rfl
            | true => obtain ⟨snap, rfl⟩ := h2 hb; simp only [Dev.result, h1]
          · obtain ⟨snap, rfl⟩ := h2 ht
            cases he
        · exact r.cq c e he)
    refine ⟨d', g1, ?_⟩
    have keep : ∀ c' id', id' ∉ (s.ch c).poll.2.map Prod.fst ∨ c' ≠ c → d'.dev.ops (c', id') = d.dev.ops (c', id') := by
      intro c' id' h
      rw [g4, if_neg]
      rintro ⟨h1, h2⟩
      rcases h with h | h
      · exact h h2
      · exact h h1
    have hsqn : ∀ c' id', id' ∈ (s.ch c').sq.map Prod.fst → id' ∉ (s.ch c).poll.2.map Prod.fst ∨ c' ≠ c := by
      intro c' id' h
      by_cases hc : c' = c
      · subst hc
        refine .inl fun h2 => ?_
        rw [hmem] at h2
        exact hnd.2.2 _ h _ (List.mem_append_right _ (List.mem_append.mpr h2)) rfl
      · exact .inr hc
    refine ⟨by rw [g2, r.vol], by rw [g3]; exact r.pers, ?_, ?_, ?_, ?_, ?_⟩
    · intro c' id' h
      by_cases hc : c' = c ∧ id' ∈ (s.ch c).poll.2.map Prod.fst
      · rw [g4, if_pos hc]
      · rw [g4, if_neg hc]
        apply r.idle
        intro ho
        by_cases hcc : c' = c
        · subst hcc
          apply h
          simp only [upd_same, Chan.outstanding, Chan.poll]
          rcases ho with ho | ho | ho
          · exact .inl ho
          · exact .inr (.inl ho)
          · exact absurd ⟨rfl, (hmem id').mpr ho⟩ hc
        · apply h
          simp only [upd_ne _ _ hcc]
          exact ho
    · intro c' p hp
      have hp' : p ∈ (s.ch c').sq := by
        revert hp
        refine upd_case (P := fun ch => p ∈ Chan.sq ch → _) (fun he => ?_) fun _ h => h
        subst he; exact fun h => h
      rw [keep c' p.1 (hsqn c' p.1 (List.mem_map_of_mem hp'))]
      exact r.sq c' p hp'
    · rintro ⟨a, b⟩ op hop
      have hk : b ∈ (s.ch a).kern := (hh.kern a b).mpr (by rw [hop]; simp)
      rw [keep a b]
      · exact r.kern _ op hop
      · by_cases hc : a = c
        · subst hc
          refine .inl fun h2 => ?_
          rw [hmem] at h2
          exact hnd2.2.2 _ hk _ (List.mem_append.mpr h2) rfl
        · exact .inr hc
    · intro c' e he
      by_cases hc : c' = c
      · subst hc
        simp [Chan.poll] at he
      · simp only [upd_ne _ _ hc] at he
        exact (r.cq c' e he).congr (keep _ _ (.inr hc)) (by rw [g5]; exact id)
    · intro c' p hp
      by_cases hc : c' = c
      · subst hc
        simp [Chan.poll] at hp
      · simp only [upd_ne _ _ hc] at hp
        rw [keep _ _ (.inr hc)]
        exact r.fin c' p hp
  | crash w hw => exact ⟨WDisk.fresh w, .one (.crash d w fun x => r.pers x _ (hw x)), R.fresh⟩

theorem R.run {as : List (Act D)} {s : Uring.Sys D} (h : Run cap sync v as s) :
    ∃ d, WDisk.Run (WDisk.fresh v) (as.flatMap Act.view) d ∧ R s d := by
  induction h with
  | nil => exact ⟨_, .nil _, R.fresh⟩
  | snoc hr hs ih =>
    obtain ⟨d, h1, h2⟩ := ih
    obtain ⟨d', h3, h4⟩ := R.step (held hr) h2 (FlyPers.run h1 (FlyPers.fresh v)) hs
    exact ⟨d', by simpa using h1.trans h3, h4⟩

end Verif.WriteThrough

