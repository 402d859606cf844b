import Verif.Proof.Dev

/-! Facts about the histories of the plain disk, used to read off user-level consequences. -/

namespace Verif.Disk

variable {D : Type}

theorem Disk.Run.split {d d' : Disk D} {es : List (Ev D)} (h : Disk.Run d es d') : ∀ e1 e2, es = e1 ++ e2 →
    ∃ m, Disk.Run d e1 m ∧ Disk.Run m e2 d' := by
  induction h with
  | nil =>
    intro e1 e2 he
    obtain ⟨rfl, rfl⟩ := List.append_eq_nil_iff.mp he.symm
    exact ⟨d, .nil d, .nil d⟩
  | @snoc d1 d2 es es' hr hs ih =>
    intro e1 e2 he
    rcases List.append_eq_append_iff.mp he with ⟨b, h1, h2⟩ | ⟨b, h1, h2⟩
    · -- `e1 = es ++ b`, `es' = b ++ e2`
      cases b with
      | nil =>
        simp only [List.append_nil] at h1
        simp only [List.nil_append] at h2
        subst h1 h2
        exact ⟨_, hr, .one hs⟩
      | cons e b =>
        have hlen : es'.length ≤ 1 := by cases hs <;> simp
        rw [h2] at hlen
        simp only [List.cons_append, List.length_cons, List.length_append] at hlen
        have hb : b = [] := List.eq_nil_of_length_eq_zero (by omega)
        have he2 : e2 = [] := List.eq_nil_of_length_eq_zero (by omega)
        subst hb he2 h1
        simp only [List.append_nil] at h2
        subst h2
        exact ⟨_, hr.snoc hs, .nil _⟩
    · obtain ⟨m, h3, h4⟩ := ih e1 b h1
      subst h2
      exact ⟨m, h3, h4.snoc hs⟩

theorem Disk.Run.inv {d d' : Disk D} {es : List (Ev D)} (h : Disk.Run d es d') (P : Disk D → Prop) (h0 : P d)
    (hstep : ∀ d1 es1 d2, Disk.Step d1 es1 d2 → (∀ e ∈ es1, e ∈ es) → P d1 → P d2) : P d' := by
  induction h with
  | nil => exact h0
  | snoc hr hs ih =>
    exact hstep _ _ _ hs (fun e he => List.mem_append_right _ he)
      (ih fun d1 es1 d2 h1 h2 => hstep d1 es1 d2 h1 fun e he => List.mem_append_left _ (h2 e he))

/-- A single event as a run: moves inside, the event, no more. -/
theorem Disk.Run.event {d d' : Disk D} {e : Ev D} {es : List (Ev D)} (h : Disk.Run d (e :: es) d') :
    ∃ m m', Disk.Run d [] m ∧ Disk.Step m [e] m' ∧ Disk.Run m' es d' := by
  obtain ⟨m1, h1, h2⟩ := h.split [e] es rfl
  have : ∀ {d es m}, Disk.Run (D := D) d es m → es = [e] → ∃ a b, Disk.Run d [] a ∧ Disk.Step a [e] b ∧ Disk.Run b [] m := by
    intro d es m hr
    induction hr with
    | nil => simp
    | @snoc d1 d2 es es' hr hs ih =>
      intro he
      cases es with
      | nil =>
        simp only [List.nil_append] at he
        subst he
        exact ⟨_, _, hr, hs, .nil _⟩
      | cons e' es =>
        simp only [List.cons_append, List.cons.injEq, List.append_eq_nil_iff] at he
        obtain ⟨rfl, rfl, rfl⟩ := he
        obtain ⟨a, b, h3, h4, h5⟩ := ih rfl
        exact ⟨a, b, h3, h4, by simpa using h5.snoc hs⟩
  obtain ⟨a, b, h3, h4, h5⟩ := this h1 rfl
  exact ⟨a, b, h3, h4, by simpa using h5.trans h2⟩

/-! ### What can be in a sector -/

/-- A sector of a disk can only hold (now or after a power loss) its initial content or something a write of the
history put there. -/
theorem Disk.Run.origin {d d' : Disk D} {es : List (Ev D)} {v0 : Nat → D} (h : Disk.Run d es d') (h0 : d = Dev.fresh v0) :
    (∀ x v, d'.pers x v → v = v0 x ∨ wrote es x v) ∧ (∀ x, d'.vol x = v0 x ∨ wrote es x (d'.vol x)) ∧
    ∀ o off cnt data done, d'.ops o = some (.write off cnt data done) → ∃ q id, Ev.issue q id (.write off cnt data) ∈ es := by
  subst h0
  induction h with
  | nil => exact ⟨fun x v hp => Or.inl hp, fun x => Or.inl rfl, by intro o off cnt data done h; simp [Dev.fresh] at h⟩
  | @snoc d1 d2 es es' hr hs ih =>
    obtain ⟨h1, h2, h3⟩ := ih
    have mono : ∀ {x v}, v = v0 x ∨ wrote es x v → v = v0 x ∨ wrote (es ++ es') x v := by
      rintro x v (h | ⟨q, id, off, cnt, data, h, h'⟩)
      · exact Or.inl h
      · exact Or.inr ⟨q, id, off, cnt, data, List.mem_append_left _ h, h'⟩
    cases hs with
    | issue c id r hn =>
      refine ⟨?_, ?_, ?_⟩
      · intro x v hp
        cases r with
        | read off cnt => exact mono (h1 x v hp)
        | flush => exact mono (h1 x v hp)
        | write off cnt data =>
          rcases hp with hp | ⟨hc, hv⟩
          · exact mono (h1 x v hp)
          · exact Or.inr ⟨c, id, off, cnt, data, by simp, hc, hv⟩
      · intro x
        have : (d1.issue (c, id) r).vol = d1.vol := by cases r <;> rfl
        rw [this]
        exact mono (h2 x)
      · intro o off cnt data done ho
        cases r with
        | read off' cnt' =>
          simp only [Disk.issue, Dev.issueRead] at ho
          by_cases he : o = (c, id)
          · subst he; simp at ho
          · rw [upd_ne _ _ he] at ho
            obtain ⟨q, i, h⟩ := h3 o off cnt data done ho
            exact ⟨q, i, List.mem_append_left _ h⟩
        | flush =>
          simp only [Disk.issue, Dev.issueFlush] at ho
          by_cases he : o = (c, id)
          · subst he; simp at ho
          · rw [upd_ne _ _ he] at ho
            obtain ⟨q, i, h⟩ := h3 o off cnt data done ho
            exact ⟨q, i, List.mem_append_left _ h⟩
        | write off' cnt' data' =>
          simp only [Disk.issue] at ho
          by_cases he : o = (c, id)
          · subst he
            rw [ops_issueWrite_same] at ho
            simp only [Option.some.injEq, Op.write.injEq] at ho
            obtain ⟨rfl, rfl, rfl, -⟩ := ho
            exact ⟨c, id, by simp⟩
          · rw [ops_issueWrite_ne _ _ _ _ he] at ho
            simp only [Option.map_eq_some_iff] at ho
            obtain ⟨op, h4, h5⟩ := ho
            rw [addSnap_write.mp h5] at h4
            obtain ⟨q, i, h⟩ := h3 o off cnt data done h4
            exact ⟨q, i, List.mem_append_left _ h⟩
    | exec o x =>
      simp only [List.append_nil]
      refine ⟨fun y v hp => h1 y v (by rwa [pers_exec] at hp), ?_, ?_⟩
      · intro y
        rcases vol_exec (d := d1) (o := o) (x := x) (y := y) with h | ⟨rfl, off, cnt, data, done, ho, hc, h⟩
        · rw [h]; exact h2 y
        · obtain ⟨q, i, hm⟩ := h3 _ _ _ _ _ ho
          exact Or.inr ⟨q, i, off, cnt, data, hm, hc, h⟩
      · intro o' off cnt data done ho
        obtain ⟨done', h, -⟩ := exec_write_inv ho
        exact h3 _ _ _ _ _ h
    | respond c id ok hm =>
      refine ⟨fun x v hp => mono (h1 x v hp.1), fun x => mono (h2 x), ?_⟩
      intro o off cnt data done ho
      obtain ⟨-, h⟩ := ops_complete_some ho
      obtain ⟨q, i, h⟩ := h3 _ _ _ _ _ h
      exact ⟨q, i, List.mem_append_left _ h⟩
    | crash v hv =>
      refine ⟨?_, fun x => mono (h1 x _ (hv x)), by intro o off cnt data done h; simp [Dev.fresh] at h⟩
      intro x u hp
      have : u = v x := hp
      rw [this]
      exact mono (h1 x _ (hv x))

/-! ### Flushed data survive -/

/-- Writes in flight to sector `x`: only that of `ow`, and it writes `v`. -/
def Fly (d : Disk D) (x : Nat) (ow : Option (Nat × Nat)) (v : D) : Prop :=
  ∀ o off cnt data done, d.ops o = some (.write off cnt data done) → covers off cnt x →
    ow = some o ∧ data x = v ∧ (done x = true → d.vol x = v)

theorem issue_write_inv {d : Disk D} {o o' : Nat × Nat} {r : Req D} {off cnt : Nat} {data : Nat → D} {done : Nat → Bool}
    (h : (d.issue o r).ops o' = some (.write off cnt data done)) :
    (o' = o ∧ r = .write off cnt data ∧ done = fun _ => false) ∨ (o' ≠ o ∧ d.ops o' = some (.write off cnt data done)) := by
  by_cases he : o' = o
  · subst he
    left
    cases r with
    | read => simp [Disk.issue, Dev.issueRead] at h
    | flush => simp [Disk.issue, Dev.issueFlush] at h
    | write off' cnt' data' =>
      simp only [Disk.issue, ops_issueWrite_same, Option.some.injEq, Op.write.injEq] at h
      obtain ⟨rfl, rfl, rfl, rfl⟩ := h
      exact ⟨rfl, rfl, rfl⟩
  · right
    refine ⟨he, ?_⟩
    cases r with
    | read => simpa [Disk.issue, Dev.issueRead, upd_ne _ _ he] using h
    | flush => simpa [Disk.issue, Dev.issueFlush, upd_ne _ _ he] using h
    | write off' cnt' data' => exact (issueWrite_write he).mp h

theorem issue_vol' (d : Disk D) (o : Nat × Nat) (r : Req D) : (d.issue o r).vol = d.vol := by cases r <;> rfl

theorem Fly.step {d d' : Disk D} {es : List (Ev D)} {x : Nat} {ow : Option (Nat × Nat)} {v : D} (h : Fly d x ow v)
    (hs : Disk.Step d es d') (hq : quiet es x) : Fly d' x ow v := by
  cases hs with
  | issue c id r hn =>
    intro o off cnt data done ho hc
    rcases issue_write_inv ho with ⟨rfl, rfl, -⟩ | ⟨-, ho⟩
    · exact absurd hc (hq c id off cnt data (by simp))
    · rw [issue_vol']; exact h o off cnt data done ho hc
  | exec o' y =>
    intro o off cnt data done ho hc
    obtain ⟨done0, h0, h1⟩ := exec_write_inv ho
    obtain ⟨h2, h3, h4⟩ := h o off cnt data done0 h0 hc
    refine ⟨h2, h3, fun hd => ?_⟩
    rcases vol_exec (d := d) (o := o') (x := y) (y := x) with hv | ⟨rfl, off', cnt', data', done', ho', hc', hv⟩
    · rcases h1 with rfl | ⟨rfl, hcy, rfl, hvol⟩
      · rw [hv]; exact h4 hd
      · by_cases hxy : x = y
        · subst hxy; rw [hvol]; simpa using h3
        · rw [upd_ne _ _ hxy] at hd; rw [hv]; exact h4 hd
    · rw [hv]; exact (h o' off' cnt' data' done' ho' hc').2.1
  | respond c id ok hm =>
    intro o off cnt data done ho hc
    exact h o off cnt data done (ops_complete_some ho).2 hc
  | crash w hw => intro o off cnt data done ho; simp [Dev.fresh] at ho

theorem Fly.vol_step {d d' : Disk D} {es : List (Ev D)} {x : Nat} {v w : D} (h : Fly d x none w)
    (hv : d.vol x = v) (hs : Disk.Step d es d') (hcr : ∀ e ∈ es, e ≠ .crash) : d'.vol x = v := by
  cases hs with
  | issue c id r hn => rw [issue_vol']; exact hv
  | exec o' y =>
    rcases vol_exec (d := d) (o := o') (x := y) (y := x) with h1 | ⟨rfl, off', cnt', data', done', ho', hc', -⟩
    · rw [h1]; exact hv
    · have := (h o' off' cnt' data' done' ho' hc').1; simp at this
  | respond c id ok hm => exact hv
  | crash w hw => exact absurd rfl (hcr _ (by simp))

/-- The kind of a request does not change until its response. -/
theorem op_step {d d' : Disk D} {es : List (Ev D)} {o : Nat × Nat} {op : Op D} (hs : Disk.Step d es d')
    (hr : unanswered o es) (ho : d.ops o = some op) :
    ∃ op', d'.ops o = some op' ∧
      match op with
      | .write off cnt data _ => ∃ done', op' = .write off cnt data done'
      | .read off cnt got => ∃ got', op' = .read off cnt got' ∧ ∀ x, got' x = got x ∨ got' x = some (d.vol x)
      | .flush snap => ∃ snap', op' = .flush snap' ∧ ∀ x v, snap' x v → snap x v ∨ ¬ quiet es x := by
  cases hs with
  | issue c id r hn =>
    have hne : o ≠ (c, id) := by rintro rfl; rw [hn] at ho; simp at ho
    cases r with
    | read off cnt =>
      refine ⟨op, by simpa [Disk.issue, Dev.issueRead, upd_ne _ _ hne] using ho, ?_⟩
      cases op with
      | write => exact ⟨_, rfl⟩
      | read => exact ⟨_, rfl, fun x => Or.inl rfl⟩
      | flush => exact ⟨_, rfl, fun _ _ h => Or.inl h⟩
    | flush =>
      refine ⟨op, by simpa [Disk.issue, Dev.issueFlush, upd_ne _ _ hne] using ho, ?_⟩
      cases op with
      | write => exact ⟨_, rfl⟩
      | read => exact ⟨_, rfl, fun x => Or.inl rfl⟩
      | flush => exact ⟨_, rfl, fun _ _ h => Or.inl h⟩
    | write off cnt data =>
      refine ⟨op.addSnap off cnt data, by simp only [Disk.issue]; rw [ops_issueWrite_ne _ _ _ _ hne, ho]; rfl, ?_⟩
      cases op with
      | write => exact ⟨_, rfl⟩
      | read => exact ⟨_, rfl, fun x => Or.inl rfl⟩
      | flush snap =>
        refine ⟨_, rfl, fun x v h => ?_⟩
        rcases h with h | ⟨hc, -⟩
        · exact Or.inl h
        · exact Or.inr fun hq => hq c id off cnt data (by simp) hc
  | exec o' y =>
    by_cases he : o = o'
    · subst he
      rcases exec_cases d o y with h | ⟨off, cnt, got, h0, hc, h⟩ | ⟨off, cnt, data, done, h0, hc, h⟩
      · rw [h]
        refine ⟨op, ho, ?_⟩
        cases op with
        | write => exact ⟨_, rfl⟩
        | read => exact ⟨_, rfl, fun x => Or.inl rfl⟩
        | flush => exact ⟨_, rfl, fun _ _ h => Or.inl h⟩
      · rw [ho] at h0
        simp only [Option.some.injEq] at h0
        subst h0
        rw [h]
        refine ⟨_, upd_same _ _ _, _, rfl, fun x => ?_⟩
        by_cases hx : x = y
        · subst hx; right; simp
        · left; rw [upd_ne _ _ hx]
      · rw [ho] at h0
        simp only [Option.some.injEq] at h0
        subst h0
        rw [h]
        exact ⟨_, upd_same _ _ _, _, rfl⟩
    · refine ⟨op, by rw [ops_exec_ne _ _ he]; exact ho, ?_⟩
      cases op with
      | write => exact ⟨_, rfl⟩
      | read => exact ⟨_, rfl, fun x => Or.inl rfl⟩
      | flush => exact ⟨_, rfl, fun _ _ h => Or.inl h⟩
  | respond c id ok hm =>
    have hne : o ≠ (c, id) := by
      rintro rfl
      exact (hr _ (List.mem_singleton_self _)).1 rfl
    refine ⟨op, by rw [ops_complete_ne _ _ hne]; exact ho, ?_⟩
    cases op with
    | write => exact ⟨_, rfl⟩
    | read => exact ⟨_, rfl, fun x => Or.inl rfl⟩
    | flush => exact ⟨_, rfl, fun _ _ h => Or.inl h⟩
  | crash w hw => exact absurd rfl (hr _ (by simp)).2

/-- A write still in flight was issued, and nothing ended it since. -/
theorem Disk.Run.pending {d d' : Disk D} {es : List (Ev D)} {v0 : Nat → D} (h : Disk.Run d es d') (h0 : d = Dev.fresh v0)
    {q id off cnt : Nat} {data : Nat → D} {done : Nat → Bool} (ho : d'.ops (q, id) = some (.write off cnt data done)) :
    ∃ a b, es = a ++ Ev.issue q id (.write off cnt data) :: b ∧ unanswered (q, id) b := by
  subst h0
  induction h generalizing done with
  | nil => simp [Dev.fresh] at ho
  | @snoc d1 d2 es es' hr hs ih =>
    cases hs with
    | issue c i r hn =>
      rcases issue_write_inv ho with ⟨he, rfl, -⟩ | ⟨hne, ho⟩
      · simp only [Prod.mk.injEq] at he
        obtain ⟨rfl, rfl⟩ := he
        exact ⟨es, [], by simp, by intro e he; simp at he⟩
      · obtain ⟨a, b, rfl, hb⟩ := ih ho
        refine ⟨a, b ++ [_], by simp; rfl, ?_⟩
        intro e he
        rcases List.mem_append.mp he with he | he
        · exact hb e he
        · simp only [List.mem_singleton] at he
          subst he
          exact ⟨by simp [Ev.isResp], by simp⟩
    | exec o x =>
      obtain ⟨done', h, -⟩ := exec_write_inv ho
      simpa using ih h
    | respond c i ok hm =>
      obtain ⟨hne, ho⟩ := ops_complete_some ho
      obtain ⟨a, b, rfl, hb⟩ := ih ho
      refine ⟨a, b ++ [_], by simp; rfl, ?_⟩
      intro e he
      rcases List.mem_append.mp he with he | he
      · exact hb e he
      · simp only [List.mem_singleton] at he
        subst he
        refine ⟨?_, by simp⟩
        simp only [Ev.isResp]
        exact fun h => hne h.symm
    | crash v hv => simp [Dev.fresh] at ho

theorem quiet_mono {es es' : List (Ev D)} {x : Nat} (h : quiet es x) (hs : ∀ e ∈ es', e ∈ es) : quiet es' x :=
  fun q id off cnt data he => h q id off cnt data (hs _ he)

theorem quiet_nil (x : Nat) : quiet ([] : List (Ev D)) x := by intro q id off cnt data h; simp at h

theorem unanswered_nil (o : Nat × Nat) : unanswered o ([] : List (Ev D)) := by intro e h; simp at h

/-- The state between the completion of a write to `x` and the next one. -/
structure Rest (d : Disk D) (x : Nat) (v : D) : Prop where
  fly : Fly d x none v
  vol : d.vol x = v

theorem Rest.run {d d' : Disk D} {es : List (Ev D)} {x : Nat} {v : D} (h : Rest d x v) (hr : Disk.Run d es d')
    (hq : quiet es x) (hc : ∀ e ∈ es, e ≠ .crash) : Rest d' x v :=
  hr.inv (fun d => Rest d x v) h fun _ _ _ hs hm h =>
    ⟨h.fly.step hs (quiet_mono hq hm), h.fly.vol_step h.vol hs fun e he => hc e (hm e he)⟩

/-- After a flush: also a power loss leaves `v`. -/
structure Durable (d : Disk D) (x : Nat) (v : D) : Prop extends Rest d x v where
  pers : ∀ u, d.pers x u → u = v

theorem Durable.run {d d' : Disk D} {es : List (Ev D)} {x : Nat} {v : D} (h : Durable d x v) (hr : Disk.Run d es d')
    (hq : quiet es x) : Durable d' x v :=
  hr.inv (fun d => Durable d x v) h fun d1 es1 d2 hs hm h => by
    have hq1 := quiet_mono hq hm
    have hf := h.fly.step hs hq1
    cases hs with
    | issue c id r hn =>
      refine ⟨⟨hf, by rw [issue_vol']; exact h.vol⟩, fun u hu => ?_⟩
      cases r with
      | read => exact h.pers u hu
      | flush => exact h.pers u hu
      | write off cnt data =>
        rcases hu with hu | ⟨hc, -⟩
        · exact h.pers u hu
        · exact absurd hc (hq1 c id off cnt data (by simp))
    | exec o y =>
      refine ⟨⟨hf, h.fly.vol_step h.vol (.exec d1 o y) (by simp)⟩, fun u hu => h.pers u (by rwa [pers_exec] at hu)⟩
    | respond c id ok hm => exact ⟨⟨hf, h.vol⟩, fun u hu => h.pers u hu.1⟩
    | crash w hw =>
      have : w x = v := h.pers _ (hw x)
      refine ⟨⟨hf, this⟩, fun u hu => ?_⟩
      have hu : u = w x := hu
      rw [hu, this]

/-- Reading a resting sector returns its content. -/
theorem Rest.read {d d' : Disk D} {es : List (Ev D)} {x q id off cnt : Nat} {v : D} {out : List (Option D)} (h : Rest d x v)
    (hr : Disk.Run d (Ev.issue q id (.read off cnt) :: es ++ [Ev.resp q id true out]) d')
    (hq : quiet es x) (ho : unanswered (q, id) es) (hx : covers off cnt x) : out[x - off]? = some (some v) := by
  obtain ⟨m, m', h1, h2, h3⟩ := Disk.Run.event hr
  have hm : Rest m x v := h.run h1 (quiet_nil x) (by simp)
  have hm' : Rest m' x v := by
    refine hm.run (.one h2) ?_ (by simp)
    intro q id off cnt data he; simp at he
  obtain ⟨n, h4, h5⟩ := h3.split es _ rfl
  obtain ⟨p, p', h6, h7, -⟩ := Disk.Run.event h5
  have h8 := h4.trans h6
  rw [List.append_nil] at h8
  have key : Rest p x v ∧ ∃ got, p.ops (q, id) = some (.read off cnt got) ∧ (got x = none ∨ got x = some v) := by
    refine h8.inv (fun p => Rest p x v ∧ ∃ got, p.ops (q, id) = some (.read off cnt got) ∧ (got x = none ∨ got x = some v)) ?_ ?_
    · refine ⟨hm', fun _ => none, ?_, Or.inl rfl⟩
      cases h2 with
      | issue c i r hn => simp [Disk.issue, Dev.issueRead]
    · rintro d1 es1 d2 hs hsub ⟨hR, got, hop, hgot⟩
      refine ⟨hR.run (.one hs) (quiet_mono hq hsub) fun e he => (ho e (hsub e he)).2, ?_⟩
      obtain ⟨op', h9, got', rfl, h10⟩ := op_step hs (fun e he => ho e (hsub e he)) hop
      refine ⟨got', h9, ?_⟩
      rcases h10 x with h10 | h10
      · rw [h10]; exact hgot
      · right; rw [h10, hR.vol]
  obtain ⟨-, got, hop, hgot⟩ := key
  generalize he : Ev.resp q id true out = e at h7
  have hmem : [e] = [Ev.resp q id true out] := by rw [he]
  have : out = (List.range cnt).map fun i => got (off + i) := by
    generalize hl : [e] = l at h7
    cases h7 with
    | issue => subst he; simp at hl
    | exec => simp at hl
    | crash => subst he; simp at hl
    | respond c i ok hmc =>
      subst he
      simp only [List.cons.injEq, Ev.resp.injEq, and_true] at hl
      obtain ⟨rfl, rfl, rfl, rfl⟩ := hl
      simp [Dev.result, hop]
  have hfin : got x ≠ none := by
    generalize hl : [e] = l at h7
    cases h7 with
    | issue => subst he; simp at hl
    | exec => simp at hl
    | crash => subst he; simp at hl
    | respond c i ok hmc =>
      subst he
      simp only [List.cons.injEq, Ev.resp.injEq, and_true] at hl
      obtain ⟨rfl, rfl, rfl, -⟩ := hl
      obtain ⟨op, h9, h10⟩ := hmc
      rw [hop] at h9
      simp only [Option.some.injEq] at h9
      subst h9
      exact h10 rfl x hx
  have hv : got x = some v := by
    rcases hgot with h | h
    · exact absurd h hfin
    · exact h
  rw [this]
  obtain ⟨h9, h10⟩ := hx
  rw [List.getElem?_map, List.getElem?_range (by omega)]
  simp only [Option.map_some, Option.some.injEq]
  rw [show off + (x - off) = x by omega, hv]

theorem resp_inv {d d' : Disk D} {q id : Nat} {ok : Bool} {out : List (Option D)}
    (h : Disk.Step d [Ev.resp q id ok out] d') :
    Dev.mayComplete d (q, id) ok ∧ d' = Dev.complete d (q, id) ok ∧ out = Dev.result d (q, id) ok := by
  generalize hl : [Ev.resp q id ok out] = l at h
  cases h with
  | issue => simp at hl
  | exec => simp at hl
  | crash => simp at hl
  | respond c i ok' hmc =>
    simp only [List.cons.injEq, Ev.resp.injEq, and_true] at hl
    obtain ⟨rfl, rfl, rfl, rfl⟩ := hl
    exact ⟨hmc, rfl, rfl⟩

theorem issue_inv {d d' : Disk D} {q id : Nat} {r : Req D} (h : Disk.Step d [Ev.issue q id r] d') :
    d.ops (q, id) = none ∧ d' = d.issue (q, id) r := by
  generalize hl : [Ev.issue q id r] = l at h
  cases h with
  | issue c i r' hn =>
    simp only [List.cons.injEq, Ev.issue.injEq, and_true] at hl
    obtain ⟨rfl, rfl, rfl⟩ := hl
    exact ⟨hn, rfl⟩
  | exec => simp at hl
  | crash => simp at hl
  | respond => simp at hl

/-- A completed write to a sector with no other write in flight leaves its data there. -/
theorem Rest.write {d d' : Disk D} {es0 es : List (Ev D)} {v0 : Nat → D} {x q id off cnt : Nat} {data : Nat → D} {out : List (Option D)}
    (hr : Disk.Run d (es0 ++ Ev.issue q id (.write off cnt data) :: es ++ [Ev.resp q id true out]) d') (hd : d = Dev.fresh v0)
    (hs : settledWrites es0 x) (hq : quiet es x) (ho : unanswered (q, id) es) (hx : covers off cnt x) : Rest d' x (data x) := by
  rw [List.append_assoc] at hr
  obtain ⟨m0, g1, g2⟩ := hr.split es0 _ rfl
  rw [List.cons_append] at g2
  obtain ⟨m, m', h1, h2, h3⟩ := Disk.Run.event g2
  have g3 : Disk.Run d es0 m := by simpa using g1.trans h1
  have hf : Fly m x none (data x) := by
    intro o off' cnt' data' done' ho' hc'
    obtain ⟨a, b, hab, hb⟩ := g3.pending hd (q := o.1) (id := o.2) ho'
    exact absurd hb (hs a b _ _ _ _ _ hab hc')
  obtain ⟨hn, rfl⟩ := issue_inv h2
  have hf' : Fly (m.issue (q, id) (.write off cnt data)) x (some (q, id)) (data x) := by
    intro o off' cnt' data' done' ho' hc'
    rcases issue_write_inv ho' with ⟨rfl, he, rfl⟩ | ⟨-, ho'⟩
    · simp only [Req.write.injEq] at he
      obtain ⟨-, -, rfl⟩ := he
      exact ⟨rfl, rfl, by simp⟩
    · have := (hf o off' cnt' data' done' ho' hc').1; simp at this
  obtain ⟨n, h4, h5⟩ := h3.split es _ rfl
  obtain ⟨p, p', h6, h7, h8⟩ := Disk.Run.event h5
  have h9 := h4.trans h6
  rw [List.append_nil] at h9
  have key : Fly p x (some (q, id)) (data x) ∧ ∃ done, p.ops (q, id) = some (.write off cnt data done) := by
    refine h9.inv (fun p => Fly p x (some (q, id)) (data x) ∧ ∃ done, p.ops (q, id) = some (.write off cnt data done)) ?_ ?_
    · exact ⟨hf', _, ops_issueWrite_same _ _ _ _ _⟩
    · rintro d1 es1 d2 hs1 hsub ⟨hR, done, hop⟩
      refine ⟨hR.step hs1 (quiet_mono hq hsub), ?_⟩
      obtain ⟨op', h9, done', rfl⟩ := op_step hs1 (fun e he => ho e (hsub e he)) hop
      exact ⟨done', h9⟩
  obtain ⟨hfly, done, hop⟩ := key
  obtain ⟨⟨op, h10, h11⟩, rfl, -⟩ := resp_inv h7
  rw [hop] at h10
  simp only [Option.some.injEq] at h10
  subst h10
  have hR : Rest (Dev.complete p (q, id) true) x (data x) := by
    refine ⟨?_, (hfly _ _ _ _ _ hop hx).2.2 (h11 rfl x hx)⟩
    intro o off' cnt' data' done' ho' hc'
    obtain ⟨hne, ho'⟩ := ops_complete_some ho'
    have := (hfly o off' cnt' data' done' ho' hc').1
    simp only [Option.some.injEq] at this
    exact absurd this.symm hne
  exact hR.run h8 (quiet_nil x) (by simp)

/-- A completed flush makes a resting sector durable. -/
theorem Rest.flush {d d' : Disk D} {es : List (Ev D)} {x q id : Nat} {v : D} {out : List (Option D)} (h : Rest d x v)
    (hr : Disk.Run d (Ev.issue q id .flush :: es ++ [Ev.resp q id true out]) d') (hq : quiet es x) (ho : unanswered (q, id) es) :
    Durable d' x v := by
  obtain ⟨m, m', h1, h2, h3⟩ := Disk.Run.event hr
  have hm : Rest m x v := h.run h1 (quiet_nil x) (by simp)
  have hm' : Rest m' x v := by
    refine hm.run (.one h2) ?_ (by simp)
    intro q id off cnt data he; simp at he
  obtain ⟨hn, rfl⟩ := issue_inv h2
  obtain ⟨n, h4, h5⟩ := h3.split es _ rfl
  obtain ⟨p, p', h6, h7, h8⟩ := Disk.Run.event h5
  have h9 := h4.trans h6
  rw [List.append_nil] at h9
  have key : Rest p x v ∧ ∃ snap, p.ops (q, id) = some (.flush snap) ∧ ∀ u, snap x u → u = v := by
    refine h9.inv (fun p => Rest p x v ∧ ∃ snap, p.ops (q, id) = some (.flush snap) ∧ ∀ u, snap x u → u = v) ?_ ?_
    · refine ⟨hm', _, upd_same _ _ _, ?_⟩
      rintro u (hu | ⟨o, off, cnt, data, done, hop, hc, -⟩)
      · rw [hu, hm.vol]
      · have := (hm.fly o off cnt data done hop hc).1; simp at this
    · rintro d1 es1 d2 hs hsub ⟨hR, snap, hop, hsnap⟩
      refine ⟨hR.run (.one hs) (quiet_mono hq hsub) fun e he => (ho e (hsub e he)).2, ?_⟩
      obtain ⟨op', h10, snap', rfl, h11⟩ := op_step hs (fun e he => ho e (hsub e he)) hop
      refine ⟨snap', h10, fun u hu => ?_⟩
      rcases h11 x u hu with h | h
      · exact hsnap u h
      · exact absurd (quiet_mono hq hsub) h
  obtain ⟨hR, snap, hop, hsnap⟩ := key
  obtain ⟨-, rfl, -⟩ := resp_inv h7
  have : Durable (Dev.complete p (q, id) true) x v := by
    refine ⟨⟨?_, hR.vol⟩, fun u hu => hsnap u (hu.2 snap hop rfl)⟩
    intro o off' cnt' data' done' ho' hc'
    exact hR.fly o off' cnt' data' done' (ops_complete_some ho').2 hc'
  exact this.run h8 (quiet_nil x)

end Verif.Disk
