import Verif.Spec.WriteThrough
import Verif.Proof.DiskTrace

/-! Histories of a disk that writes through. -/

namespace Verif.Disk

variable {D : Type}

theorem WDisk.Run.one {d d' : WDisk D} {es : List (Ev D)} (h : WDisk.Step d es d') : WDisk.Run d es d' := by
  simpa using (WDisk.Run.nil d).snoc h

theorem WDisk.Run.trans {d d' d'' : WDisk D} {es es' : List (Ev D)} (h : WDisk.Run d es d') (h' : WDisk.Run d' es' d'') :
    WDisk.Run d (es ++ es') d'' := by
  induction h' with
  | nil => simpa using h
  | snoc _ hs ih => rw [← List.append_assoc]; exact ih.snoc hs

theorem WDisk.Run.split {d d' : WDisk D} {es : List (Ev D)} (h : WDisk.Run d es d') : ∀ e1 e2, es = e1 ++ e2 →
    ∃ m, WDisk.Run d e1 m ∧ WDisk.Run m e2 d' := by
  induction h with
  | nil =>
    intro e1 e2 he
    obtain ⟨rfl, rfl⟩ := List.append_eq_nil_iff.mp he.symm
    exact ⟨d, .nil d, .nil d⟩
  | @snoc d1 d2 es es' hr hs ih =>
    intro e1 e2 he
    rcases List.append_eq_append_iff.mp he with ⟨b, h1, h2⟩ | ⟨b, h1, h2⟩
    · cases b with
      | nil =>
        simp only [List.append_nil] at h1
        simp only [List.nil_append] at h2
        subst h1 h2
        exact ⟨_, hr, .one hs⟩
      | cons e b =>
        have hlen : es'.length ≤ 1 := by cases hs <;> simp
        rw [h2] at hlen
        simp only [List.cons_append, List.length_cons, List.length_append] at hlen
        have hb : b = [] := List.eq_nil_of_length_eq_zero (by omega)
        have he2 : e2 = [] := List.eq_nil_of_length_eq_zero (by omega)
        subst hb he2 h1
        simp only [List.append_nil] at h2
        subst h2
        exact ⟨_, hr.snoc hs, .nil _⟩
    · obtain ⟨m, h3, h4⟩ := ih e1 b h1
      subst h2
      exact ⟨m, h3, h4.snoc hs⟩

theorem WDisk.Run.inv {d d' : WDisk D} {es : List (Ev D)} (h : WDisk.Run d es d') (P : WDisk D → Prop) (h0 : P d)
    (hstep : ∀ d1 es1 d2, WDisk.Step d1 es1 d2 → (∀ e ∈ es1, e ∈ es) → P d1 → P d2) : P d' := by
  induction h with
  | nil => exact h0
  | snoc hr hs ih =>
    exact hstep _ _ _ hs (fun e he => List.mem_append_right _ he)
      (ih fun d1 es1 d2 h1 h2 => hstep d1 es1 d2 h1 fun e he => List.mem_append_left _ (h2 e he))

theorem WDisk.Run.event {d d' : WDisk D} {e : Ev D} {es : List (Ev D)} (h : WDisk.Run d (e :: es) d') :
    ∃ m m', WDisk.Run d [] m ∧ WDisk.Step m [e] m' ∧ WDisk.Run m' es d' := by
  obtain ⟨m1, h1, h2⟩ := h.split [e] es rfl
  have : ∀ {d es m}, WDisk.Run (D := D) d es m → es = [e] → ∃ a b, WDisk.Run d [] a ∧ WDisk.Step a [e] b ∧ WDisk.Run b [] m := by
    intro d es m hr
    induction hr with
    | nil => simp
    | @snoc d1 d2 es es' hr hs ih =>
      intro he
      cases es with
      | nil =>
        simp only [List.nil_append] at he
        subst he
        exact ⟨_, _, hr, hs, .nil _⟩
      | cons e' es =>
        simp only [List.cons_append, List.cons.injEq, List.append_eq_nil_iff] at he
        obtain ⟨rfl, rfl, rfl⟩ := he
        obtain ⟨a, b, h3, h4, h5⟩ := ih rfl
        exact ⟨a, b, h3, h4, by simpa using h5.snoc hs⟩
  obtain ⟨a, b, h3, h4, h5⟩ := this h1 rfl
  exact ⟨a, b, h3, h4, by simpa using h5.trans h2⟩

/-- Apart from what survives a power loss, a step is a step of the plain disk, or nothing. -/
theorem WDisk.Step.plain {d d' : WDisk D} {es : List (Ev D)} (h : WDisk.Step d es d') :
    ∃ m, Disk.Run d.dev es m ∧ m.vol = d'.dev.vol ∧ m.ops = d'.dev.ops := by
  cases h with
  | issue c id r hn => exact ⟨_, .one (.issue _ c id r hn), rfl, rfl⟩
  | exec o x => exact ⟨_, .one (.exec _ o x), rfl, rfl⟩
  | settle o off cnt data done h hf => exact ⟨_, .nil _, rfl, rfl⟩
  | respond c id ok hm hs => exact ⟨_, .one (.respond _ c id ok hm), rfl, rfl⟩
  | crash v hv => exact ⟨_, .one (.crash _ v hv), rfl, rfl⟩

theorem Fly.congr {d d' : Disk D} {x : Nat} {ow : Option (Nat × Nat)} {v : D} (h : Fly d x ow v) (h1 : d.vol = d'.vol) (h2 : d.ops = d'.ops) :
    Fly d' x ow v := by
  intro o off cnt data done ho hc
  rw [← h2] at ho
  rw [← h1]
  exact h o off cnt data done ho hc

theorem Fly.wstep {d d' : WDisk D} {es : List (Ev D)} {x : Nat} {ow : Option (Nat × Nat)} {v : D} (h : Fly d.dev x ow v)
    (hs : WDisk.Step d es d') (hq : quiet es x) : Fly d'.dev x ow v := by
  obtain ⟨m, h1, h2, h3⟩ := hs.plain
  refine Fly.congr ?_ h2 h3
  exact h1.inv (fun d => Fly d x ow v) h fun _ _ _ hs hm h => h.step hs (quiet_mono hq hm)

/-- A write still in flight was issued, and nothing ended it since. -/
theorem WDisk.Run.pending {d d' : WDisk D} {es : List (Ev D)} {v0 : Nat → D} (h : WDisk.Run d es d') (h0 : d = WDisk.fresh v0)
    {q id off cnt : Nat} {data : Nat → D} {done : Nat → Bool} (ho : d'.dev.ops (q, id) = some (.write off cnt data done)) :
    ∃ a b, es = a ++ Ev.issue q id (.write off cnt data) :: b ∧ unanswered (q, id) b := by
  subst h0
  induction h generalizing done with
  | nil => simp [WDisk.fresh, Dev.fresh] at ho
  | @snoc d1 d2 es es' hr hs ih =>
    cases hs with
    | issue c i r hn =>
      rcases issue_write_inv ho with ⟨he, rfl, -⟩ | ⟨hne, ho⟩
      · simp only [Prod.mk.injEq] at he
        obtain ⟨rfl, rfl⟩ := he
        exact ⟨es, [], by simp, by intro e he; simp at he⟩
      · obtain ⟨a, b, rfl, hb⟩ := ih ho
        refine ⟨a, b ++ [_], by simp; rfl, ?_⟩
        intro e he
        rcases List.mem_append.mp he with he | he
        · exact hb e he
        · simp only [List.mem_singleton] at he
          subst he
          exact ⟨by simp [Ev.isResp], by simp⟩
    | exec o x =>
      obtain ⟨done', h, -⟩ := exec_write_inv ho
      simpa using ih h
    | settle => simpa using ih ho
    | respond c i ok hm =>
      have hne : (q, id) ≠ (c, i) := by
        intro he
        rw [he] at ho
        simp [Dev.leave] at ho
      simp only [Dev.leave, upd_ne _ _ hne] at ho
      obtain ⟨a, b, rfl, hb⟩ := ih ho
      refine ⟨a, b ++ [_], by simp; rfl, ?_⟩
      intro e he
      rcases List.mem_append.mp he with he | he
      · exact hb e he
      · simp only [List.mem_singleton] at he
        subst he
        refine ⟨?_, by simp⟩
        simp only [Ev.isResp]
        exact fun h => hne h.symm
    | crash v hv => simp [WDisk.fresh, Dev.fresh] at ho

theorem Durable.wstep {d d' : WDisk D} {es : List (Ev D)} {x : Nat} {v : D} (h : Durable d.dev x v) (hs : WDisk.Step d es d') (hq : quiet es x) :
    Durable d'.dev x v := by
  have hf := h.fly.wstep hs hq
  cases hs with
  | issue c id r hn => exact h.run (.one (.issue d.dev c id r hn)) hq
  | exec o y => exact h.run (.one (.exec d.dev o y)) hq
  | settle => exact ⟨⟨hf, h.vol⟩, fun u hu => h.pers u hu.1⟩
  | respond => exact ⟨⟨hf, h.vol⟩, h.pers⟩
  | crash w hw => exact h.run (.one (.crash d.dev w hw)) hq

theorem Durable.wrun {d d' : WDisk D} {es : List (Ev D)} {x : Nat} {v : D} (h : Durable d.dev x v) (hr : WDisk.Run d es d') (hq : quiet es x) :
    Durable d'.dev x v :=
  hr.inv (fun d => Durable d.dev x v) h fun _ _ _ hs hm h => h.wstep hs (quiet_mono hq hm)

/-- The state between the issue and the answer of the write of `o`, the only one to sector `x`. -/
structure Under (d : WDisk D) (x : Nat) (o : Nat × Nat) (off cnt : Nat) (data : Nat → D) : Prop where
  fly : Fly d.dev x (some o) (data x)
  op : ∃ done, d.dev.ops o = some (.write off cnt data done)
  sure : d.sure o = true → d.dev.vol x = data x ∧ ∀ u, d.dev.pers x u → u = data x

theorem Under.step {d d' : WDisk D} {es : List (Ev D)} {x : Nat} {o : Nat × Nat} {off cnt : Nat} {data : Nat → D} (h : Under d x o off cnt data)
    (hs : WDisk.Step d es d') (hx : covers off cnt x) (hq : quiet es x) (hu : unanswered o es) : Under d' x o off cnt data := by
  obtain ⟨done, ho⟩ := h.op
  have hf := h.fly.wstep hs hq
  cases hs with
  | issue c id r hn =>
    have hne : o ≠ (c, id) := fun he => by rw [he, hn] at ho; cases ho
    refine ⟨hf, ?_, fun hs => ?_⟩
    · obtain ⟨op', h1, done', rfl⟩ := op_step (.issue d.dev c id r hn) hu ho
      exact ⟨done', h1⟩
    · simp only [upd_ne _ _ hne] at hs
      obtain ⟨h1, h2⟩ := h.sure hs
      refine ⟨by rw [issue_vol']; exact h1, fun u hu => ?_⟩
      cases r with
      | read => exact h2 u hu
      | flush => exact h2 u hu
      | write off' cnt' data' =>
        rcases hu with hu | ⟨hc, -⟩
        · exact h2 u hu
        · exact absurd hc (hq c id off' cnt' data' (by simp))
  | exec o' y =>
    refine ⟨hf, ?_, fun hs => ?_⟩
    · obtain ⟨op', h1, done', rfl⟩ := op_step (.exec d.dev o' y) hu ho
      exact ⟨done', h1⟩
    · obtain ⟨h1, h2⟩ := h.sure hs
      refine ⟨?_, fun u hu => h2 u (by simpa using hu)⟩
      rcases vol_exec (d := d.dev) (o := o') (x := y) (y := x) with h3 | ⟨rfl, off', cnt', data', done', ho', hc', h3⟩
      · exact h3.trans h1
      · exact h3.trans (h.fly o' off' cnt' data' done' ho' hc').2.1
  | settle o' off' cnt' data' done' ho' hf' =>
    refine ⟨hf, ⟨done, ho⟩, fun hs => ?_⟩
    by_cases he : o = o'
    · subst he
      rw [ho] at ho'
      simp only [Option.some.injEq, Op.write.injEq] at ho'
      obtain ⟨rfl, rfl, rfl, rfl⟩ := ho'
      have hv := (h.fly _ _ _ _ _ ho hx).2.2 (hf' x hx)
      refine ⟨hv, fun u hu => ?_⟩
      rcases hu.2 hx with hu | ⟨o2, off2, cnt2, data2, done2, h2, h3, rfl⟩
      · exact hu.trans hv
      · exact (h.fly o2 off2 cnt2 data2 done2 h2 h3).2.1
    · simp only [upd_ne _ _ he] at hs
      obtain ⟨h1, h2⟩ := h.sure hs
      exact ⟨h1, fun u hu => h2 u hu.1⟩
  | respond c id ok hm hs =>
    have hne : o ≠ (c, id) := fun he => (hu _ (List.mem_singleton.mpr rfl)).1 he.symm
    exact ⟨hf, ⟨done, by simpa [Dev.leave, upd_ne _ _ hne] using ho⟩, h.sure⟩
  | crash w hw => exact absurd rfl (hu _ (List.mem_singleton.mpr rfl)).2

/-- An answered write to a sector with no other write in flight is on stable storage. -/
theorem Durable.write {d d' : WDisk D} {es0 es : List (Ev D)} {v0 : Nat → D} {x q id off cnt : Nat} {data : Nat → D} {out : List (Option D)}
    (hr : WDisk.Run d (es0 ++ Ev.issue q id (.write off cnt data) :: es ++ [Ev.resp q id true out]) d') (hd : d = WDisk.fresh v0)
    (hs : settledWrites es0 x) (hq : quiet es x) (ho : unanswered (q, id) es) (hx : covers off cnt x) : Durable d'.dev x (data x) := by
  rw [List.append_assoc] at hr
  obtain ⟨m0, g1, g2⟩ := hr.split es0 _ rfl
  rw [List.cons_append] at g2
  obtain ⟨m, m', h1, h2, h3⟩ := WDisk.Run.event g2
  have g3 : WDisk.Run d es0 m := by simpa using g1.trans h1
  have hf : Fly m.dev x none (data x) := by
    intro o off' cnt' data' done' ho' hc'
    obtain ⟨a, b, hab, hb⟩ := g3.pending hd (q := o.1) (id := o.2) ho'
    exact absurd hb (hs a b _ _ _ _ _ hab hc')
  have hm' : m' = { dev := m.dev.issue (q, id) (.write off cnt data), sure := upd m.sure (q, id) false } := by
    generalize hl : [Ev.issue q id (.write off cnt data)] = l at h2
    cases h2 with
    | issue c i r' hn =>
      simp only [List.cons.injEq, Ev.issue.injEq, and_true] at hl
      obtain ⟨rfl, rfl, rfl⟩ := hl
      rfl
    | exec => simp at hl
    | settle => simp at hl
    | crash => simp at hl
    | respond => simp at hl
  have hU : Under m' x (q, id) off cnt data := by
    subst hm'
    refine ⟨?_, ⟨_, ops_issueWrite_same _ _ _ _ _⟩, by simp⟩
    intro o off' cnt' data' done' ho' hc'
    rcases issue_write_inv (d := m.dev) (o := (q, id)) (r := .write off cnt data) ho' with ⟨rfl, he, rfl⟩ | ⟨-, ho'⟩
    · simp only [Req.write.injEq] at he
      obtain ⟨-, -, rfl⟩ := he
      exact ⟨rfl, rfl, by simp⟩
    · have := (hf o off' cnt' data' done' ho' hc').1; simp at this
  obtain ⟨n, h4, h5⟩ := h3.split es _ rfl
  obtain ⟨p, p', h6, h7, h8⟩ := WDisk.Run.event h5
  have h9 := h4.trans h6
  rw [List.append_nil] at h9
  have key : Under p x (q, id) off cnt data :=
    h9.inv (fun p => Under p x (q, id) off cnt data) hU fun _ _ _ hs hm h =>
      h.step hs hx (quiet_mono hq hm) fun e he => ho e (hm e he)
  have hD : Durable p'.dev x (data x) := by
    generalize hl : [Ev.resp q id true out] = l at h7
    cases h7 with
    | issue => simp at hl
    | exec => simp at hl
    | settle => simp at hl
    | crash => simp at hl
    | respond c i ok hm hs =>
      simp only [List.cons.injEq, Ev.resp.injEq, and_true] at hl
      obtain ⟨rfl, rfl, rfl, -⟩ := hl
      obtain ⟨done, hop⟩ := key.op
      obtain ⟨h10, h11⟩ := key.sure (hs _ _ _ _ hop rfl)
      refine ⟨⟨?_, h10⟩, h11⟩
      intro o off' cnt' data' done' ho' hc'
      have hne : o ≠ (q, id) := by
        intro he
        rw [he] at ho'
        simp [Dev.leave] at ho'
      simp only [Dev.leave, upd_ne _ _ hne] at ho'
      have := (key.fly o off' cnt' data' done' ho' hc').1
      simp only [Option.some.injEq] at this
      exact absurd this.symm hne
  exact hD.wrun h8 (quiet_nil x)

/-- Without a power loss, the history is one of the plain disk. -/
theorem WDisk.Run.plain {d d' : WDisk D} {es : List (Ev D)} (h : WDisk.Run d es d') (hc : ∀ e ∈ es, e ≠ .crash) :
    ∃ p, Disk.Run d.dev es { d'.dev with pers := p } := by
  induction h with
  | nil => exact ⟨_, .nil _⟩
  | @snoc d1 d2 es es' hr hs ih =>
    obtain ⟨p, ih⟩ := ih fun e he => hc e (List.mem_append_left _ he)
    cases hs with
    | issue c id r hn =>
      have := ih.snoc (.issue { d1.dev with pers := p } c id r hn)
      have he : ∃ p', Disk.issue { d1.dev with pers := p } (c, id) r = { d1.dev.issue (c, id) r with pers := p' } := by
        cases r <;> exact ⟨_, rfl⟩
      obtain ⟨p', he⟩ := he
      rw [he] at this
      exact ⟨p', this⟩
    | exec o x =>
      have := ih.snoc (.exec { d1.dev with pers := p } o x)
      have he : Dev.exec { d1.dev with pers := p } o x = { d1.dev.exec o x with pers := p } := by
        unfold Dev.exec
        dsimp only
        split
        · split <;> rfl
        · split <;> rfl
        · rfl
      rw [he] at this
      exact ⟨p, this⟩
    | settle => exact ⟨p, by rw [List.append_nil]; exact ih⟩
    | respond c id ok hm hs =>
      exact ⟨_, ih.snoc (.respond { d1.dev with pers := p } c id ok hm)⟩
    | crash v hv => exact absurd rfl (hc .crash (by simp))

end Verif.Disk
