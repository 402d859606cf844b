import Verif.Proof.Uring

/-! The io_uring channels over a disk behave as that disk. -/

namespace Verif.Uring
open Verif.Disk

variable {D : Type} {cap : Nat} {v : Nat → D}

/-- The same request, except that a flush may leave more behind. -/
def Same (op op' : Op D) : Prop :=
  op' = op ∨ ∃ s s', op = .flush s ∧ op' = .flush s' ∧ ∀ x v, s x v → s' x v

theorem Same.trans {a b c : Op D} (h1 : Same a b) (h2 : Same b c) : Same a c := by
  rcases h1 with rfl | ⟨s, s', rfl, rfl, h⟩
  · exact h2
  · rcases h2 with rfl | ⟨t, t', ht, rfl, h'⟩
    · exact .inr ⟨s, s', rfl, rfl, h⟩
    · obtain rfl := Op.flush.inj ht
      exact .inr ⟨s, t', rfl, rfl, fun x v hs => h' x v (h x v hs)⟩

theorem Same.finished {a b : Op D} (h : Same a b) (hf : a.finished) : b.finished := by
  rcases h with rfl | ⟨s, s', rfl, rfl, h⟩
  · exact hf
  · trivial

/-- The operation is in the state it starts in. -/
def Start : Req D → Op D → Prop
  | .read off cnt, op => op = .read off cnt fun _ => none
  | .write off cnt data, op => op = .write off cnt data fun _ => false
  | .flush, op => ∃ s, op = .flush s

theorem Start.same {r : Req D} {a b : Op D} (h : Start r a) (hs : Same a b) : Start r b := by
  rcases hs with rfl | ⟨s, s', rfl, rfl, -⟩
  · exact h
  · cases r with
    | read => cases h
    | write => cases h
    | flush => exact ⟨s', rfl⟩

theorem issue_start (d : Disk D) (o : Nat × Nat) (r : Req D) : ∃ op, (d.issue o r).ops o = some op ∧ Start r op := by
  cases r with
  | read off cnt => exact ⟨_, upd_same _ _ _, rfl⟩
  | write off cnt data => exact ⟨_, ops_issueWrite_same _ _ _ _ _, rfl⟩
  | flush => exact ⟨_, upd_same _ _ _, _, rfl⟩

theorem issue_other (d : Disk D) {o o' : Nat × Nat} (r : Req D) (h : o' ≠ o) {op : Op D} (ho : d.ops o' = some op) :
    ∃ op', (d.issue o r).ops o' = some op' ∧ Same op op' := by
  cases r with
  | read off cnt => exact ⟨op, (upd_ne _ _ h).trans ho, .inl rfl⟩
  | flush => exact ⟨op, (upd_ne _ _ h).trans ho, .inl rfl⟩
  | write off cnt data =>
    refine ⟨op.addSnap off cnt data, (ops_issueWrite_ne d off cnt data h).trans (by rw [ho]; rfl), ?_⟩
    cases op with
    | read => exact .inl rfl
    | write => exact .inl rfl
    | flush s => exact .inr ⟨s, _, rfl, rfl, fun _ _ hs => .inl hs⟩

theorem issue_none (d : Disk D) {o o' : Nat × Nat} (r : Req D) (h : o' ≠ o) (ho : d.ops o' = none) : (d.issue o r).ops o' = none := by
  have := (issue_busy d o o' r)
  cases hx : (d.issue o r).ops o' with
  | none => rfl
  | some op =>
    rw [hx] at this
    rcases this.mp (by simp) with h' | h'
    · exact absurd h' h
    · exact absurd ho h'

theorem issue_pers {d : Disk D} {o : Nat × Nat} {r : Req D} {x : Nat} {u : D} (h : d.pers x u) : (d.issue o r).pers x u := by
  cases r with
  | read => exact h
  | flush => exact h
  | write => exact .inl h

theorem Dev.Inv.step {d d' : Disk D} {es : List (Ev D)} (i : d.Inv) (h : Disk.Step d es d') : d'.Inv := by
  cases h with
  | issue c id r hn =>
    cases r with
    | read off cnt => exact i.issueRead _ _ _
    | write off cnt data => exact i.issueWrite _ _ _ _
    | flush => exact i.issueFlush _
  | exec o x => exact i.exec o x
  | respond c id ok hm => exact i.complete _ _
  | crash w hw => exact Dev.Inv.fresh w

theorem Dev.Inv.run {d d' : Disk D} {es : List (Ev D)} (h : Disk.Run d es d') (i : d.Inv) : d'.Inv := by
  induction h with
  | nil => exact i
  | snoc _ hs ih => exact Dev.Inv.step ih hs

/-- Request `id` of channel `c` can be answered with `ok` and `data`, with `P` the contents that may survive a power loss. -/
def Answer (P : Nat → D → Prop) (d : Disk D) (c : Nat) (p : Nat × Bool × List (Option D)) : Prop :=
  ∃ op, d.ops (c, p.1) = some op ∧ (p.2.1 = true → op.finished) ∧ p.2.2 = Dev.result d (c, p.1) p.2.1 ∧
    ∀ snap, op = .flush snap → p.2.1 = true → ∀ x u, P x u → snap x u

theorem result_congr {d d' : Disk D} {o : Nat × Nat} {ok : Bool} (h : d'.ops o = d.ops o) : Dev.result d' o ok = Dev.result d o ok := by
  simp only [Dev.result, h]

theorem result_same {d d' : Disk D} {o : Nat × Nat} {ok : Bool} {a b : Op D} (h : d.ops o = some a) (h' : d'.ops o = some b)
    (hs : Same a b) : Dev.result d' o ok = Dev.result d o ok := by
  rcases hs with rfl | ⟨s, s', rfl, rfl, -⟩
  · exact result_congr (by rw [h, h'])
  · simp only [Dev.result, h, h']

theorem Answer.congr {P : Nat → D → Prop} {d d' : Disk D} {c : Nat} {p : Nat × Bool × List (Option D)} (h : Answer P d c p)
    (ho : d'.ops (c, p.1) = d.ops (c, p.1)) : Answer P d' c p := by
  obtain ⟨op, h1, h2, h3, h4⟩ := h
  exact ⟨op, by rw [ho, h1], h2, by rw [h3, result_congr ho], h4⟩

theorem Answer.same {P : Nat → D → Prop} {d d' : Disk D} {c : Nat} {p : Nat × Bool × List (Option D)} (h : Answer P d c p)
    (ho : ∀ op, d.ops (c, p.1) = some op → ∃ op', d'.ops (c, p.1) = some op' ∧ Same op op') : Answer P d' c p := by
  obtain ⟨op, h1, h2, h3, h4⟩ := h
  obtain ⟨op', h5, h6⟩ := ho op h1
  refine ⟨op', h5, fun ht => h6.finished (h2 ht), by rw [h3, result_same h1 h5 h6], ?_⟩
  intro snap hs ht x u hP
  rcases h6 with rfl | ⟨s, s', rfl, rfl, h⟩
  · exact h4 snap hs ht x u hP
  · obtain rfl := Op.flush.inj hs
    exact h x u (h4 s rfl ht x u hP)

/-- A whole list of answers. -/
theorem answers {P : Nat → D → Prop} (c : Nat) (l : List (Nat × Bool × List (Option D))) (d : Disk D)
    (hn : (l.map Prod.fst).Nodup) (h : ∀ p ∈ l, Answer P d c p) (hP : ∀ x u, P x u → d.pers x u) :
    ∃ d', Disk.Run d (l.map fun p => .resp c p.1 p.2.1 p.2.2) d' ∧ d'.vol = d.vol ∧ (∀ x u, P x u → d'.pers x u) ∧
      ∀ o, d'.ops o = if o.1 = c ∧ o.2 ∈ l.map Prod.fst then none else d.ops o := by
  induction l generalizing d with
  | nil => exact ⟨d, .nil _, rfl, hP, fun o => by simp⟩
  | cons p l ih =>
    rw [List.map_cons, List.nodup_cons] at hn
    obtain ⟨op, h1, h2, h3, h4⟩ := h p (by simp)
    have hs := Disk.Step.respond d c p.1 p.2.1 ⟨op, h1, h2⟩
    rw [← h3] at hs
    obtain ⟨d', g1, g2, g3, g4⟩ := ih (Dev.complete d (c, p.1) p.2.1) hn.2 (fun q hq => by
        refine (h q (by simp [hq])).congr (ops_complete_ne _ _ ?_)
        intro he
        have : q.1 = p.1 := by simpa using he
        exact hn.1 (this ▸ List.mem_map_of_mem hq))
      (fun x u hu => ⟨hP x u hu, fun snap hsn ht => h4 snap (by rw [h1] at hsn; exact Option.some.inj hsn) ht x u hu⟩)
    refine ⟨d', (Disk.Run.one hs).trans g1, g2, g3, ?_⟩
    rintro ⟨a, b⟩
    rw [g4]
    by_cases hab : a = c ∧ b = p.1
    · obtain ⟨rfl, rfl⟩ := hab
      simp [ops_complete_same]
    · rw [ops_complete_ne _ _ (by simpa using hab)]
      have : (a = c ∧ b ∈ (p :: l).map Prod.fst) ↔ (a = c ∧ b ∈ l.map Prod.fst) := by
        simp only [List.map_cons, List.mem_cons]
        constructor
        · rintro ⟨h1, h2 | h2⟩
          · exact absurd ⟨h1, h2⟩ hab
          · exact ⟨h1, h2⟩
        · exact fun ⟨h1, h2⟩ => ⟨h1, .inr h2⟩
      simp only [this]

/-! ## Simulation -/

structure R (s : Sys D) (d : Disk D) : Prop where
  vol : d.vol = s.dev.vol
  pers : ∀ x u, s.dev.pers x u → d.pers x u
  idle : ∀ c id, ¬(s.ch c).outstanding id → d.ops (c, id) = none
  sq : ∀ c p, p ∈ (s.ch c).sq → ∃ op, d.ops (c, p.1) = some op ∧ Start p.2 op
  kern : ∀ o op, s.dev.ops o = some op → ∃ op', d.ops o = some op' ∧ Same op op'
  cq : ∀ c e, e ∈ (s.ch c).cq → Answer s.dev.pers d c (report e)
  fin : ∀ c p, p ∈ (s.ch c).finished → p.2 = false ∧ ∃ op, d.ops (c, p.1) = some op

theorem R.inflight {s : Sys D} {d : Disk D} (r : R s d) {x : Nat} {u : D} (h : s.dev.inflight x u) : d.inflight x u := by
  obtain ⟨o, off, cnt, data, done, h1, h2, h3⟩ := h
  obtain ⟨op', h4, h5⟩ := r.kern o _ h1
  rcases h5 with rfl | ⟨_, _, h5, -⟩
  · exact ⟨o, off, cnt, data, done, h4, h2, h3⟩
  · cases h5

theorem R.fresh : R (Sys.fresh v) (Dev.fresh v) :=
  ⟨rfl, fun _ _ h => h, fun _ _ _ => rfl, by simp [Sys.fresh, Chan.new], by simp [Sys.fresh, Dev.fresh],
    by simp [Sys.fresh, Chan.new], by simp [Sys.fresh, Chan.new]⟩

theorem upd_upd {α β : Type} [DecidableEq α] (f : α → β) (a : α) (b b' : β) : upd (upd f a b) a b' = upd f a b' := by
  funext x
  simp only [upd]
  split <;> rfl

theorem upd_self {α β : Type} [DecidableEq α] (f : α → β) (a : α) : upd f a (f a) = f := by
  funext x
  simp only [upd]
  split
  · rename_i h; rw [h]
  · rfl

/-- The kernel takes one request. -/
theorem R.take1 {s : Sys D} {d : Disk D} (i : d.Inv) (r : R s d) {c id : Nat} {q : Req D} {rest : List (Nat × Req D)}
    {ch : Chan D} (hsq : (s.ch c).sq = (id, q) :: rest) (h1 : ch.sq = rest) (h2 : ch.kern = (s.ch c).kern ++ [id])
    (h3 : ch.cq = (s.ch c).cq) (h4 : ch.finished = (s.ch c).finished) :
    R { dev := s.dev.issue (c, id) q, ch := upd s.ch c ch } d := by
  obtain ⟨op0, ho0, hst⟩ := r.sq c (id, q) (by rw [hsq]; simp)
  have hfly : ∀ off cnt data, q = .write off cnt data → ∀ x, covers off cnt x → d.inflight x (data x) := by
    rintro off cnt data rfl x hx
    exact ⟨(c, id), off, cnt, data, _, by rw [ho0, show op0 = _ from hst], hx, rfl⟩
  have hpers : ∀ x u, (s.dev.issue (c, id) q).pers x u → s.dev.pers x u ∨ d.inflight x u := by
    intro x u hu
    cases q with
    | read => exact .inl hu
    | flush => exact .inl hu
    | write off cnt data =>
      rcases hu with hu | ⟨hc, rfl⟩
      · exact .inl hu
      · exact .inr (hfly off cnt data rfl x hc)
  refine ⟨by rw [r.vol, issue_vol'], ?_, ?_, ?_, ?_, ?_, ?_⟩
  · intro x u hu
    rcases hpers x u hu with h | h
    · exact r.pers x u h
    · exact i.fly_pers x u h
  · intro c' id' ho
    apply r.idle
    intro h
    apply ho
    refine upd_case (P := fun ch => Chan.outstanding ch id') (fun he => ?_) fun _ => h
    subst he
    simp only [Chan.outstanding, hsq, h1, h2, h3, h4, List.map_cons, List.mem_cons, List.mem_append, List.not_mem_nil, or_false] at h ⊢
    rcases h with (h | h) | h | h
    · exact .inr (.inl (.inr h))
    · exact .inl h
    · exact .inr (.inl (.inl h))
    · exact .inr (.inr h)
  · intro c' p
    refine upd_case (P := fun ch => p ∈ Chan.sq ch → _) (fun he => ?_) fun _ => r.sq c' p
    subst he
    rw [h1]
    exact fun hp => r.sq c' p (by rw [hsq]; simp [hp])
  · intro o op ho
    by_cases hne : o = (c, id)
    · subst hne
      refine ⟨op0, ho0, ?_⟩
      cases q with
      | read off cnt =>
        simp only [Disk.issue, Dev.issueRead, upd_same, Option.some.injEq] at ho
        exact .inl (by rw [← ho]; exact hst)
      | write off cnt data =>
        simp only [Disk.issue, ops_issueWrite_same, Option.some.injEq] at ho
        exact .inl (by rw [← ho]; exact hst)
      | flush =>
        simp only [Disk.issue, Dev.issueFlush, upd_same, Option.some.injEq] at ho
        obtain ⟨snap, rfl⟩ := hst
        refine .inr ⟨_, _, ho.symm, rfl, fun x u hu => ?_⟩
        rcases hu with rfl | hu
        · rw [← r.vol]; exact i.vol_snap _ _ ho0 x
        · exact i.fly_snap _ _ ho0 x u (r.inflight hu)
    · cases hold : s.dev.ops o with
      | none => rw [issue_none _ _ hne hold] at ho; cases ho
      | some op1 =>
        obtain ⟨op', h5, h6⟩ := r.kern o op1 hold
        refine ⟨op', h5, ?_⟩
        cases q with
        | read => rw [show op = op1 from (by have := (upd_ne _ _ hne).symm.trans ho; rw [hold] at this; exact (Option.some.inj this).symm)]; exact h6
        | flush => rw [show op = op1 from (by have := (upd_ne _ _ hne).symm.trans ho; rw [hold] at this; exact (Option.some.inj this).symm)]; exact h6
        | write off cnt data =>
          simp only [Disk.issue, ops_issueWrite_ne _ _ _ _ hne, hold, Option.map_some, Option.some.injEq] at ho
          subst ho
          rcases h6 with rfl | ⟨t, t', rfl, rfl, h7⟩
          · cases op' with
            | read => exact .inl rfl
            | write => exact .inl rfl
            | flush t =>
              refine .inr ⟨_, t, rfl, rfl, fun x u hu => ?_⟩
              rcases hu with hu | ⟨hc, rfl⟩
              · exact hu
              · exact i.fly_snap _ _ h5 x _ (hfly off cnt data rfl x hc)
          · refine .inr ⟨_, t', rfl, rfl, fun x u hu => ?_⟩
            rcases hu with hu | ⟨hc, rfl⟩
            · exact h7 x u hu
            · exact i.fly_snap _ _ h5 x _ (hfly off cnt data rfl x hc)
  · intro c' e he
    have he' : e ∈ (s.ch c').cq := by
      revert he
      refine upd_case (P := fun ch => e ∈ Chan.cq ch → _) (fun hc => ?_) fun _ h => h
      subst hc; rw [h3]; exact fun h => h
    obtain ⟨op, g1, g2, g3, g4⟩ := r.cq c' e he'
    refine ⟨op, g1, g2, g3, ?_⟩
    intro snap hs ht x u hu
    rcases hpers x u hu with h | h
    · exact g4 snap hs ht x u h
    · subst hs; exact i.fly_snap _ _ g1 x u h
  · intro c' p hp
    apply r.fin c' p
    revert hp
    refine upd_case (P := fun ch => p ∈ Chan.finished ch → _) (fun hc => ?_) fun _ h => h
    subst hc; rw [h4]; exact fun h => h

theorem R.takes {d : Disk D} (i : d.Inv) (c : Nat) (n : Nat) (s : Sys D) (r : R s d) (ch : Chan D) (h1 : ch.sq = (s.ch c).sq)
    (h2 : ch.kern = (s.ch c).kern) (h3 : ch.cq = (s.ch c).cq) (h4 : ch.finished = (s.ch c).finished) :
    R { dev := issueAll c s.dev ((s.ch c).sq.take n), ch := upd s.ch c (ch.take n) } d := by
  have zero : ∀ (s : Sys D) (ch : Chan D), R s d → ch.sq = (s.ch c).sq → ch.kern = (s.ch c).kern → ch.cq = (s.ch c).cq →
      ch.finished = (s.ch c).finished → R { dev := s.dev, ch := upd s.ch c ch } d := by
    intro s ch r h1 h2 h3 h4
    refine ⟨r.vol, r.pers, ?_, ?_, r.kern, ?_, ?_⟩
    · intro c' id' ho
      apply r.idle
      revert ho
      refine upd_case (P := fun ch => ¬Chan.outstanding ch id' → _) (fun he => ?_) fun _ => id
      subst he
      simp only [Chan.outstanding, h1, h2, h3, h4]; exact id
    · intro c' p
      refine upd_case (P := fun ch => p ∈ Chan.sq ch → _) (fun he => ?_) fun _ => r.sq c' p
      subst he; rw [h1]; exact r.sq c' p
    · intro c' p
      refine upd_case (P := fun ch => p ∈ Chan.cq ch → _) (fun he => ?_) fun _ => r.cq c' p
      subst he; rw [h3]; exact r.cq c' p
    · intro c' p
      refine upd_case (P := fun ch => p ∈ Chan.finished ch → _) (fun he => ?_) fun _ => r.fin c' p
      subst he; rw [h4]; exact r.fin c' p
  induction n generalizing s ch with
  | zero => exact zero s _ r (by simp [Chan.take, h1]) (by simp [Chan.take, h2]) h3 h4
  | succ n ih =>
    cases hsq : (s.ch c).sq with
    | nil =>
      refine zero s _ r ?_ ?_ h3 h4
      · simp [Chan.take, h1, hsq]
      · simp [Chan.take, h1, h2, hsq]
    | cons p rest =>
      have r1 := r.take1 (ch := { s.ch c with sq := rest, kern := (s.ch c).kern ++ [p.1] }) i hsq rfl rfl rfl rfl
      have := ih _ r1 { ch with sq := rest, kern := ch.kern ++ [p.1] } (by simp) (by simp [h2]) (by simp [h3]) (by simp [h4])
      simp only [upd_same, upd_upd] at this
      have e : Chan.take { ch with sq := rest, kern := ch.kern ++ [p.1] } n = ch.take (n + 1) := by
        simp only [Chan.take, h1, hsq, List.drop_succ_cons, List.take_succ_cons, List.map_cons, List.append_assoc, List.cons_append, List.nil_append]
      rw [e] at this
      exact this

/-- One step of the channels is some steps of the plain disk. -/
theorem R.step {s s' : Sys D} {d : Disk D} {a : Act D} (hh : Held s) (hh' : Held s') (i : d.Inv) (r : R s d)
    (h : Step cap false true s a s') : ∃ d', Disk.Run d a.view d' ∧ R s' d' := by
  cases h with
  | add c id q ho =>
    have hn := r.idle c id ho
    refine ⟨d.issue (c, id) q, .one (.issue d c id q hn), ?_⟩
    have hne : ∀ {c' id'}, (s.ch c').outstanding id' → (c', id') ≠ (c, id) := by
      intro c' id' h he
      cases he
      exact ho h
    have hkne : ∀ {o op}, s.dev.ops o = some op → o ≠ (c, id) := by
      rintro ⟨a, b⟩ op hop
      exact hne (.inr (.inl ((hh.kern a b).mpr (by rw [hop]; simp))))
    have hout : ∀ c' id', ((upd s.ch c ((s.ch c).add cap false id q)) c').outstanding id' ↔
        (c', id') = (c, id) ∨ (s.ch c').outstanding id' := by
      intro c' id'
      refine upd_case (P := fun ch => Chan.outstanding ch id' ↔ _) (fun he => ?_) fun he => by simp [he]
      subst he
      rw [← Chan.mem_ids, ← Chan.mem_ids, (add_ids _ _ _).mem_iff, List.mem_cons]
      simp
    have same : ∀ {c' id'} {op : Op D}, (s.ch c').outstanding id' → d.ops (c', id') = some op →
        ∃ op', (d.issue (c, id) q).ops (c', id') = some op' ∧ Same op op' := fun h h' => issue_other d q (hne h) h'
    refine ⟨by rw [issue_vol', r.vol], fun x u hu => issue_pers (r.pers x u hu), ?_, ?_, ?_, ?_, ?_⟩
    · intro c' id' h
      rw [hout] at h
      refine issue_none d q (fun he => h (.inl he)) (r.idle c' id' fun hc => h (.inr hc))
    · intro c' p hp
      have hp' : (c' = c ∧ p = (id, q)) ∨ p ∈ (s.ch c').sq := by
        revert hp
        refine upd_case (P := fun ch => p ∈ Chan.sq ch → _) (fun he => ?_) fun _ h => .inr h
        subst he
        unfold Chan.add
        split
        · exact fun h => .inr h
        split
        · exact fun h => .inr h
        · simp only [List.mem_append, List.mem_singleton]
          rintro (h | h)
          · exact .inr h
          · exact .inl ⟨trivial, h⟩
      rcases hp' with ⟨rfl, rfl⟩ | hp'
      · exact issue_start d _ q
      · obtain ⟨op, h1, h2⟩ := r.sq c' p hp'
        obtain ⟨op', h3, h4⟩ := same (.inl (List.mem_map_of_mem hp')) h1
        exact ⟨op', h3, h2.same h4⟩
    · intro o op hop
      obtain ⟨op', h1, h2⟩ := r.kern o op hop
      obtain ⟨op'', h3, h4⟩ := issue_other d q (hkne hop) h1
      exact ⟨op'', h3, h2.trans h4⟩
    · intro c' e he
      have he' : e ∈ (s.ch c').cq := by
        revert he
        refine upd_case (P := fun ch => e ∈ Chan.cq ch → _) (fun hc => ?_) fun _ h => h
        subst hc
        unfold Chan.add
        split
        · exact fun h => h
        split <;> exact fun h => h
      exact (r.cq c' e he').same fun op h => same (.inr (.inr (.inl (List.mem_map_of_mem he')))) h
    · intro c' p hp
      have hp' : (c' = c ∧ p = (id, false)) ∨ p ∈ (s.ch c').finished := by
        revert hp
        refine upd_case (P := fun ch => p ∈ Chan.finished ch → _) (fun he => ?_) fun _ h => .inr h
        subst he
        unfold Chan.add
        rw [if_neg (by simp)]
        split
        · simp only [List.mem_append, List.mem_singleton]
          rintro (h | h)
          · exact .inr h
          · exact .inl ⟨trivial, h⟩
        · exact fun h => .inr h
      rcases hp' with ⟨rfl, rfl⟩ | hp'
      · obtain ⟨op, h1, -⟩ := issue_start d (c', id) q
        exact ⟨rfl, op, h1⟩
      · obtain ⟨h1, op, h2⟩ := r.fin c' p hp'
        obtain ⟨op', h3, -⟩ := same (.inr (.inr (.inr (List.mem_map_of_mem hp')))) h2
        exact ⟨h1, op', h3⟩
  | idle c h0 => exact ⟨d, .nil _, r⟩
  | submit c n hp hn => exact ⟨d, .nil _, r.takes i c n s (s.ch c).submitted rfl rfl rfl rfl⟩
  | submitErr c hp =>
    refine ⟨d, .nil _, ?_⟩
    have := r.takes i c 0 s (s.ch c).submitted rfl rfl rfl rfl
    simpa [issueAll, Chan.take] using this
  | exec o x =>
    cases hop : s.dev.ops o with
    | none =>
      refine ⟨d, .nil _, ?_⟩
      rw [show s.dev.exec o x = s.dev by simp [Dev.exec, hop]]
      exact r
    | some op =>
      obtain ⟨op', h1, h2⟩ := r.kern o op hop
      rcases h2 with rfl | ⟨t, t', rfl, rfl, h2⟩
      · refine ⟨d.exec o x, .one (.exec d o x), ?_⟩
        have hother : ∀ {o'}, o' ≠ o → (d.exec o x).ops o' = d.ops o' := fun h => ops_exec_ne d x h
        have hk : ∀ {c id}, s.dev.ops (c, id) = none → (d.exec o x).ops (c, id) = d.ops (c, id) := by
          intro c id hn
          refine hother fun he => ?_
          rw [he, hop] at hn; cases hn
        have hnk : ∀ {c id}, id ∉ (s.ch c).kern → (d.exec o x).ops (c, id) = d.ops (c, id) := by
          intro c id hn
          refine hk (Classical.byContradiction fun hc => hn ((hh.kern c id).mpr hc))
        have hdisj := fun c => List.nodup_append.mp (hh.nodup c)
        have hv : (d.exec o x).vol = (s.dev.exec o x).vol := by
          simp only [Dev.exec, hop, h1]
          cases op' with
          | read => simp only []; split <;> exact r.vol
          | write => simp only []; split
                     · rw [r.vol]
                     · exact r.vol
          | flush => exact r.vol
        refine ⟨hv, by simpa using r.pers, ?_, ?_, ?_, ?_, ?_⟩
        · intro c id ho
          have := r.idle c id ho
          rw [hnk fun hc => ho (.inr (.inl hc)), this]
        · intro c p hp
          rw [hnk fun hc => (hdisj c).2.2 _ (List.mem_map_of_mem hp) _ (List.mem_append_left _ hc) rfl]
          exact r.sq c p hp
        · intro o2 op2 ho2
          by_cases he : o2 = o
          · subst he
            refine ⟨op2, ?_, .inl rfl⟩
            revert ho2
            simp only [Dev.exec, hop, h1]
            cases op' with
            | read => simp only []; split
                      · simp only [upd_same, r.vol]; exact fun h => h
                      · rw [hop, h1]; exact fun h => h
            | write => simp only []; split
                       · simp only [upd_same]; exact fun h => h
                       · rw [hop, h1]; exact fun h => h
            | flush => rw [hop, h1]; exact fun h => h
          · rw [ops_exec_ne _ _ he] at ho2 ⊢
            exact r.kern o2 op2 ho2
        · intro c e he
          have hx : e.1 ∉ (s.ch c).kern := fun hc =>
            (List.nodup_append.mp (hdisj c).2.1).2.2 _ hc _ (List.mem_append_left _ (List.mem_map_of_mem he)) rfl
          have := (r.cq c e he).congr (d' := d.exec o x) (hnk hx)
          simpa using this
        · intro c p hp
          have hx : p.1 ∉ (s.ch c).kern := fun hc =>
            (List.nodup_append.mp (hdisj c).2.1).2.2 _ hc _ (List.mem_append_right _ (List.mem_map_of_mem hp)) rfl
          rw [hnk hx]
          exact r.fin c p hp
      · refine ⟨d, .nil _, ?_⟩
        rw [show s.dev.exec o x = s.dev by simp [Dev.exec, hop]]
        exact r
  | done c id res op ho hw =>
    refine ⟨d, .nil _, ?_⟩
    obtain ⟨op', h1, h2⟩ := r.kern _ op ho
    have hk : id ∈ (s.ch c).kern := (hh.kern c id).mpr (by rw [ho]; simp)
    refine ⟨r.vol, fun x u hu => r.pers x u (pers_complete hu), ?_, ?_, ?_, ?_, ?_⟩
    · intro c' id' h
      apply r.idle
      intro hc
      apply h
      refine upd_case (P := fun ch => Chan.outstanding ch id') (fun he => ?_) fun _ => hc
      subst he
      rw [← Chan.mem_ids, (post_ids _ _ _ _ hk).mem_iff, Chan.mem_ids]
      exact hc
    · intro c' p
      refine upd_case (P := fun ch => p ∈ Chan.sq ch → _) (fun he => ?_) fun _ => r.sq c' p
      subst he; exact r.sq c' p
    · intro o2 op2 ho2
      exact r.kern o2 op2 (ops_complete_some ho2).2
    · intro c' e he
      have he' : (c' = c ∧ e = (id, res, s.dev.result (c, id) (decide (0 ≤ res)))) ∨ e ∈ (s.ch c').cq := by
        revert he
        refine upd_case (P := fun ch => e ∈ Chan.cq ch → _) (fun hc => ?_) fun _ h => .inr h
        subst hc
        simp only [Chan.post, List.mem_append, List.mem_singleton]
        rintro (h | h)
        · exact .inr h
        · exact .inl ⟨trivial, h⟩
      rcases he' with ⟨rfl, rfl⟩ | he'
      · refine ⟨op', h1, fun ht => h2.finished (hw rfl (by simpa [report] using ht)), (result_same ho h1 h2).symm, ?_⟩
        intro snap hs ht x u hu
        rcases h2 with rfl | ⟨t, t', rfl, rfl, h3⟩
        · exact hu.2 snap (by rw [ho, hs]) ht
        · obtain rfl := Op.flush.inj hs
          exact h3 x u (hu.2 t ho ht)
      · obtain ⟨op2, g1, g2, g3, g4⟩ := r.cq c' e he'
        exact ⟨op2, g1, g2, g3, fun snap hs ht x u hu => g4 snap hs ht x u (pers_complete hu)⟩
    · intro c' p
      refine upd_case (P := fun ch => p ∈ Chan.finished ch → _) (fun he => ?_) fun _ => r.fin c' p
      subst he; exact r.fin c' p
  | poll c =>
    have hids : (s.ch c).poll.2.map Prod.fst = (s.ch c).finished.map Prod.fst ++ (s.ch c).cq.map Prod.fst := by
      simp [Chan.poll, List.map_append, List.map_map, Function.comp_def, report]
    have hnd := List.nodup_append.mp (hh.nodup c)
    have hnd2 := List.nodup_append.mp hnd.2.1
    have hmem : ∀ id, id ∈ (s.ch c).poll.2.map Prod.fst ↔ id ∈ (s.ch c).cq.map Prod.fst ∨ id ∈ (s.ch c).finished.map Prod.fst := by
      intro id
      rw [hids, List.mem_append]
      exact or_comm
    obtain ⟨d', g1, g2, g3, g4⟩ := answers (P := s.dev.pers) c (s.ch c).poll.2 d
      (by rw [hids, (List.perm_append_comm).nodup_iff]; exact hnd2.2.1)
      (by
        intro p hp
        simp only [Chan.poll, List.mem_append, List.mem_map] at hp
        rcases hp with ⟨q, hq, rfl⟩ | ⟨e, he, rfl⟩
        · obtain ⟨h1, op, h2⟩ := r.fin c q hq
          refine ⟨op, h2, by rw [h1]; simp, ?_, by rw [h1]; simp⟩
          simp only [Dev.result, h2, h1]
          cases op <;> rfl
        · exact r.cq c e he) r.pers
    refine ⟨d', g1, ?_⟩
    have keep : ∀ c' id', id' ∉ (s.ch c).poll.2.map Prod.fst ∨ c' ≠ c → d'.ops (c', id') = d.ops (c', id') := by
      intro c' id' h
      rw [g4, if_neg]
      rintro ⟨h1, h2⟩
      rcases h with h | h
      · exact h h2
      · exact h h1
    have hsqn : ∀ c' id', id' ∈ (s.ch c').sq.map Prod.fst → id' ∉ (s.ch c).poll.2.map Prod.fst ∨ c' ≠ c := by
      intro c' id' h
      by_cases hc : c' = c
      · subst hc
        refine .inl fun h2 => ?_
        rw [hmem] at h2
        exact hnd.2.2 _ h _ (List.mem_append_right _ (List.mem_append.mpr h2)) rfl
      · exact .inr hc
    refine ⟨by rw [g2, r.vol], g3, ?_, ?_, ?_, ?_, ?_⟩
    · intro c' id' h
      by_cases hc : c' = c ∧ id' ∈ (s.ch c).poll.2.map Prod.fst
      · rw [g4, if_pos hc]
      · rw [g4, if_neg hc]
        apply r.idle
        intro ho
        by_cases hcc : c' = c
        · subst hcc
          apply h
          simp only [upd_same, Chan.outstanding, Chan.poll]
          rcases ho with ho | ho | ho
          · exact .inl ho
          · exact .inr (.inl ho)
          · exact absurd ⟨rfl, (hmem id').mpr ho⟩ hc
        · apply h
          simp only [upd_ne _ _ hcc]
          exact ho
    · intro c' p hp
      have hp' : p ∈ (s.ch c').sq := by
        revert hp
        refine upd_case (P := fun ch => p ∈ Chan.sq ch → _) (fun he => ?_) fun _ h => h
        subst he; exact fun h => h
      rw [keep c' p.1 (hsqn c' p.1 (List.mem_map_of_mem hp'))]
      exact r.sq c' p hp'
    · rintro ⟨a, b⟩ op hop
      have hk : b ∈ (s.ch a).kern := (hh.kern a b).mpr (by rw [hop]; simp)
      rw [keep a b]
      · exact r.kern _ op hop
      · by_cases hc : a = c
        · subst hc
          refine .inl fun h2 => ?_
          rw [hmem] at h2
          exact hnd2.2.2 _ hk _ (List.mem_append.mpr h2) rfl
        · exact .inr hc
    · intro c' e he
      by_cases hc : c' = c
      · subst hc
        simp [Chan.poll] at he
      · simp only [upd_ne _ _ hc] at he
        exact (r.cq c' e he).congr (keep _ _ (.inr hc))
    · intro c' p hp
      by_cases hc : c' = c
      · subst hc
        simp [Chan.poll] at hp
      · simp only [upd_ne _ _ hc] at hp
        rw [keep _ _ (.inr hc)]
        exact r.fin c' p hp
  | crash w hw => exact ⟨Dev.fresh w, .one (.crash d w fun x => r.pers x _ (hw x)), R.fresh⟩

theorem R.run {as : List (Act D)} {s : Sys D} (h : Run cap false true v as s) :
    ∃ d, Disk.Run (Dev.fresh v) (as.flatMap Act.view) d ∧ R s d := by
  induction h with
  | nil => exact ⟨_, .nil _, R.fresh⟩
  | snoc hr hs ih =>
    obtain ⟨d, h1, h2⟩ := ih
    obtain ⟨d', h3, h4⟩ := R.step (Held.run hr) ((Held.run hr).step hs) (Dev.Inv.run h1 (Dev.Inv.fresh v)) h2 hs
    exact ⟨d', by simpa using h1.trans h3, h4⟩

end Verif.Uring
