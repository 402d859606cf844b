import Verif.Spec.Disk

/-! Lemmas about the device model of `Spec/Disk`. -/

namespace Verif.Disk

variable {O D : Type} [DecidableEq O]

/-- Shape of a request, without the data that changes while it is in flight. -/
inductive Kind where
  | read (off cnt : Nat) | write (off cnt : Nat) | flush
deriving DecidableEq

def Op.kind : Op D → Kind
  | .read off cnt _ => .read off cnt
  | .write off cnt _ _ => .write off cnt
  | .flush _ => .flush

def Dev.kinds (d : Dev O D) (o : O) : Option Kind := (d.ops o).map Op.kind

theorem kinds_none {d : Dev O D} {o : O} : d.kinds o = none ↔ d.ops o = none := by
  simp [Dev.kinds]

theorem kinds_read {d : Dev O D} {o : O} {off cnt : Nat} (h : d.kinds o = some (.read off cnt)) :
    ∃ got, d.ops o = some (.read off cnt got) := by
  simp only [Dev.kinds, Option.map_eq_some_iff] at h
  obtain ⟨op, h1, h2⟩ := h
  cases op <;> simp [Op.kind] at h2
  obtain ⟨rfl, rfl⟩ := h2
  exact ⟨_, h1⟩

theorem kinds_write {d : Dev O D} {o : O} {off cnt : Nat} (h : d.kinds o = some (.write off cnt)) :
    ∃ data done, d.ops o = some (.write off cnt data done) := by
  simp only [Dev.kinds, Option.map_eq_some_iff] at h
  obtain ⟨op, h1, h2⟩ := h
  cases op <;> simp [Op.kind] at h2
  obtain ⟨rfl, rfl⟩ := h2
  exact ⟨_, _, h1⟩

theorem kinds_flush {d : Dev O D} {o : O} (h : d.kinds o = some .flush) :
    ∃ snap, d.ops o = some (.flush snap) := by
  simp only [Dev.kinds, Option.map_eq_some_iff] at h
  obtain ⟨op, h1, h2⟩ := h
  cases op <;> simp [Op.kind] at h2
  exact ⟨_, h1⟩

theorem kinds_of_ops {d : Dev O D} {o : O} {op : Op D} (h : d.ops o = some op) : d.kinds o = some op.kind := by
  simp [Dev.kinds, h]

@[simp] theorem addSnap_kind (off cnt : Nat) (data : Nat → D) (op : Op D) :
    (op.addSnap off cnt data).kind = op.kind := by
  cases op <;> rfl

theorem kinds_issueRead (d : Dev O D) (o o' : O) (off cnt : Nat) :
    (d.issueRead o off cnt).kinds o' = if o' = o then some (.read off cnt) else d.kinds o' := by
  simp only [Dev.kinds, Dev.issueRead, upd]
  split <;> simp [Op.kind]

theorem kinds_issueWrite (d : Dev O D) (o o' : O) (off cnt : Nat) (data : Nat → D) :
    (d.issueWrite o off cnt data).kinds o' = if o' = o then some (.write off cnt) else d.kinds o' := by
  simp only [Dev.kinds, Dev.issueWrite, upd]
  split
  · simp [Op.kind]
  · cases d.ops o' <;> simp

theorem kinds_issueFlush (d : Dev O D) (o o' : O) :
    (d.issueFlush o).kinds o' = if o' = o then some .flush else d.kinds o' := by
  simp only [Dev.kinds, Dev.issueFlush, upd]
  split <;> simp [Op.kind]

theorem kinds_complete (d : Dev O D) (o o' : O) (ok : Bool) :
    (d.complete o ok).kinds o' = if o' = o then none else d.kinds o' := by
  simp only [Dev.kinds, Dev.complete, upd]
  split <;> simp

theorem kinds_exec (d : Dev O D) (o o' : O) (x : Nat) : (d.exec o x).kinds o' = d.kinds o' := by
  unfold Dev.exec
  split
  · rename_i off cnt got h
    split
    · by_cases ho : o' = o
      · subst ho; simp [Dev.kinds, h, Op.kind]
      · simp [Dev.kinds, upd_ne _ _ ho]
    · rfl
  · rename_i off cnt data done h
    split
    · by_cases ho : o' = o
      · subst ho; simp [Dev.kinds, h, Op.kind]
      · simp [Dev.kinds, upd_ne _ _ ho]
    · rfl
  · rfl

/-! ### Operations after each event -/

theorem ops_issueWrite_same (d : Dev O D) (o : O) (off cnt : Nat) (data : Nat → D) :
    (d.issueWrite o off cnt data).ops o = some (.write off cnt data fun _ => false) := by
  simp [Dev.issueWrite]

theorem ops_issueWrite_ne (d : Dev O D) {o o' : O} (off cnt : Nat) (data : Nat → D) (h : o' ≠ o) :
    (d.issueWrite o off cnt data).ops o' = (d.ops o').map (Op.addSnap off cnt data) := by
  simp [Dev.issueWrite, upd_ne _ _ h]

theorem addSnap_write {off cnt : Nat} {data : Nat → D} {op : Op D} {a b : Nat} {dt : Nat → D} {dn : Nat → Bool} :
    op.addSnap off cnt data = .write a b dt dn ↔ op = .write a b dt dn := by
  cases op <;> simp [Op.addSnap]

theorem addSnap_read {off cnt : Nat} {data : Nat → D} {op : Op D} {a b : Nat} {g : Nat → Option D} :
    op.addSnap off cnt data = .read a b g ↔ op = .read a b g := by
  cases op <;> simp [Op.addSnap]

theorem addSnap_flush {off cnt : Nat} {data : Nat → D} {op : Op D} {snap : Nat → D → Prop}
    (h : op.addSnap off cnt data = .flush snap) :
    ∃ snap0, op = .flush snap0 ∧ snap = fun x v => snap0 x v ∨ (covers off cnt x ∧ v = data x) := by
  cases op <;> simp [Op.addSnap] at h
  exact ⟨_, rfl, h.symm⟩

theorem issueWrite_write {d : Dev O D} {o o' : O} {off cnt a b : Nat} {data dt : Nat → D} {dn : Nat → Bool}
    (hne : o' ≠ o) :
    (d.issueWrite o off cnt data).ops o' = some (.write a b dt dn) ↔ d.ops o' = some (.write a b dt dn) := by
  rw [ops_issueWrite_ne d off cnt data hne]
  cases h : d.ops o' with
  | none => simp
  | some op => simp [addSnap_write]

theorem issueWrite_read {d : Dev O D} {o o' : O} {off cnt a b : Nat} {data : Nat → D} {g : Nat → Option D}
    (hne : o' ≠ o) :
    (d.issueWrite o off cnt data).ops o' = some (.read a b g) ↔ d.ops o' = some (.read a b g) := by
  rw [ops_issueWrite_ne d off cnt data hne]
  cases h : d.ops o' with
  | none => simp
  | some op => simp [addSnap_read]

theorem issueWrite_flush {d : Dev O D} {o o' : O} {off cnt : Nat} {data : Nat → D} {snap : Nat → D → Prop}
    (h : (d.issueWrite o off cnt data).ops o' = some (.flush snap)) :
    o' ≠ o ∧ ∃ snap0, d.ops o' = some (.flush snap0) ∧
      snap = fun x v => snap0 x v ∨ (covers off cnt x ∧ v = data x) := by
  by_cases hne : o' = o
  · subst hne
    rw [ops_issueWrite_same] at h
    simp at h
  · refine ⟨hne, ?_⟩
    rw [ops_issueWrite_ne d off cnt data hne] at h
    cases h0 : d.ops o' with
    | none => simp [h0] at h
    | some op =>
      simp only [h0, Option.map_some, Option.some.injEq] at h
      obtain ⟨s0, h1, h2⟩ := addSnap_flush h
      exact ⟨s0, by rw [h1], h2⟩

theorem issueWrite_flush_of {d : Dev O D} {o o' : O} {off cnt : Nat} {data : Nat → D} {snap0 : Nat → D → Prop}
    (hne : o' ≠ o) (h : d.ops o' = some (.flush snap0)) :
    (d.issueWrite o off cnt data).ops o' =
      some (.flush fun x v => snap0 x v ∨ (covers off cnt x ∧ v = data x)) := by
  rw [ops_issueWrite_ne d off cnt data hne, h]
  rfl

theorem ops_complete_ne (d : Dev O D) {o o' : O} (ok : Bool) (h : o' ≠ o) :
    (d.complete o ok).ops o' = d.ops o' := by
  simp [Dev.complete, upd_ne _ _ h]

theorem ops_complete_same (d : Dev O D) (o : O) (ok : Bool) : (d.complete o ok).ops o = none := by
  simp [Dev.complete]

theorem ops_complete_some {d : Dev O D} {o o' : O} {ok : Bool} {op : Op D}
    (h : (d.complete o ok).ops o' = some op) : o' ≠ o ∧ d.ops o' = some op := by
  by_cases hne : o' = o
  · subst hne; simp [Dev.complete] at h
  · exact ⟨hne, by rwa [ops_complete_ne _ _ hne] at h⟩

theorem ops_exec_ne (d : Dev O D) {o o' : O} (x : Nat) (h : o' ≠ o) : (d.exec o x).ops o' = d.ops o' := by
  unfold Dev.exec
  split
  · split
    · simp [upd_ne _ _ h]
    · rfl
  · split
    · simp [upd_ne _ _ h]
    · rfl
  · rfl

theorem exec_write {d : Dev O D} {o : O} {x off cnt : Nat} {data : Nat → D} {done : Nat → Bool}
    (h : d.ops o = some (.write off cnt data done)) (hc : covers off cnt x) :
    d.exec o x = { d with vol := upd d.vol x (data x), ops := upd d.ops o (some (.write off cnt data (upd done x true))) } := by
  simp [Dev.exec, h, hc]

theorem exec_read {d : Dev O D} {o : O} {x off cnt : Nat} {got : Nat → Option D}
    (h : d.ops o = some (.read off cnt got)) (hc : covers off cnt x) :
    d.exec o x = { d with ops := upd d.ops o (some (.read off cnt (upd got x (some (d.vol x))))) } := by
  simp [Dev.exec, h, hc]

/-- Every `exec` is one of three things. -/
theorem exec_cases (d : Dev O D) (o : O) (x : Nat) :
    d.exec o x = d ∨
    (∃ off cnt got, d.ops o = some (.read off cnt got) ∧ covers off cnt x ∧
      d.exec o x = { d with ops := upd d.ops o (some (.read off cnt (upd got x (some (d.vol x))))) }) ∨
    (∃ off cnt data done, d.ops o = some (.write off cnt data done) ∧ covers off cnt x ∧
      d.exec o x = { d with vol := upd d.vol x (data x), ops := upd d.ops o (some (.write off cnt data (upd done x true))) }) := by
  cases h : d.ops o with
  | none => left; simp [Dev.exec, h]
  | some op =>
    cases op with
    | read off cnt got =>
      by_cases hc : covers off cnt x
      · right; left; exact ⟨off, cnt, got, rfl, hc, exec_read h hc⟩
      · left; simp [Dev.exec, h, hc]
    | write off cnt data done =>
      by_cases hc : covers off cnt x
      · right; right; exact ⟨off, cnt, data, done, rfl, hc, exec_write h hc⟩
      · left; simp [Dev.exec, h, hc]
    | flush snap => left; simp [Dev.exec, h]

@[simp] theorem pers_exec (d : Dev O D) (o : O) (x : Nat) : (d.exec o x).pers = d.pers := by
  rcases exec_cases d o x with h | ⟨_, _, _, _, _, h⟩ | ⟨_, _, _, _, _, _, h⟩ <;> rw [h]

theorem exec_flush {d : Dev O D} {o o' : O} {x : Nat} {snap : Nat → D → Prop} :
    (d.exec o x).ops o' = some (.flush snap) ↔ d.ops o' = some (.flush snap) := by
  by_cases ho : o' = o
  · subst ho
    rcases exec_cases d o' x with h | ⟨_, _, _, h0, _, h⟩ | ⟨_, _, _, _, h0, _, h⟩ <;> rw [h] <;> simp [h0]
  · rw [ops_exec_ne d x ho]

/-- Writes after an `exec` are the writes before, up to `done`. -/
theorem exec_write_inv {d : Dev O D} {o o' : O} {x off cnt : Nat} {data : Nat → D} {done : Nat → Bool}
    (h : (d.exec o x).ops o' = some (.write off cnt data done)) :
    ∃ done0, d.ops o' = some (.write off cnt data done0) ∧
      (done = done0 ∨ (o' = o ∧ covers off cnt x ∧ done = upd done0 x true ∧ (d.exec o x).vol = upd d.vol x (data x))) := by
  by_cases ho : o' = o
  · subst ho
    rcases exec_cases d o' x with h1 | ⟨_, _, _, h0, _, h1⟩ | ⟨off', cnt', data', done', h0, hc, h1⟩
    · rw [h1] at h; exact ⟨done, h, Or.inl rfl⟩
    · rw [h1] at h; simp at h
    · rw [h1] at h ⊢
      simp only [upd_same, Option.some.injEq, Op.write.injEq] at h
      obtain ⟨rfl, rfl, rfl, rfl⟩ := h
      exact ⟨done', h0, Or.inr ⟨rfl, hc, rfl, rfl⟩⟩
  · rw [ops_exec_ne d x ho] at h
    exact ⟨done, h, Or.inl rfl⟩

theorem inflight_exec {d : Dev O D} {o : O} {x y : Nat} {v : D} :
    (d.exec o x).inflight y v ↔ d.inflight y v := by
  constructor
  · rintro ⟨o', off, cnt, data, done, h, hc, hv⟩
    obtain ⟨done0, h0, -⟩ := exec_write_inv h
    exact ⟨o', off, cnt, data, done0, h0, hc, hv⟩
  · rintro ⟨o', off, cnt, data, done, h, hc, hv⟩
    by_cases ho : o' = o
    · subst ho
      by_cases hcx : covers off cnt x
      · rw [exec_write h hcx]
        exact ⟨o', off, cnt, data, upd done x true, by simp, hc, hv⟩
      · exact ⟨o', off, cnt, data, done, by simp [Dev.exec, h, hcx], hc, hv⟩
    · exact ⟨o', off, cnt, data, done, by rw [ops_exec_ne d x ho]; exact h, hc, hv⟩

theorem vol_exec {d : Dev O D} {o : O} {x y : Nat} :
    (d.exec o x).vol y = d.vol y ∨
    (y = x ∧ ∃ off cnt data done, d.ops o = some (.write off cnt data done) ∧ covers off cnt x ∧
      (d.exec o x).vol y = data x) := by
  rcases exec_cases d o x with h | ⟨_, _, _, _, _, h⟩ | ⟨off, cnt, data, done, h0, hc, h⟩
  · left; rw [h]
  · left; rw [h]
  · rw [h]
    by_cases hy : y = x
    · right; subst hy; exact ⟨rfl, off, cnt, data, done, h0, hc, by simp⟩
    · left; simp [upd_ne _ _ hy]

/-! ### Device invariant -/

structure Dev.Inv (d : Dev O D) : Prop where
  vol_pers : ∀ x, d.pers x (d.vol x)
  vol_snap : ∀ o snap, d.ops o = some (.flush snap) → ∀ x, snap x (d.vol x)
  fly_pers : ∀ x v, d.inflight x v → d.pers x v
  fly_snap : ∀ o snap, d.ops o = some (.flush snap) → ∀ x v, d.inflight x v → snap x v

theorem Dev.Inv.fresh (v : Nat → D) : (Dev.fresh v : Dev O D).Inv := by
  constructor
  · intro x; rfl
  · intro o snap h; simp [Dev.fresh] at h
  · rintro x v' ⟨o, _, _, _, _, h, _⟩; simp [Dev.fresh] at h
  · intro o snap h; simp [Dev.fresh] at h

theorem inflight_mono_upd {d : Dev O D} {o : O} {op : Option (Op D)} {x : Nat} {v : D}
    (hop : ∀ off cnt data done, op ≠ some (.write off cnt data done))
    (h : ({ d with ops := upd d.ops o op } : Dev O D).inflight x v) : d.inflight x v := by
  obtain ⟨o', off, cnt, data, done, h, hc, hv⟩ := h
  by_cases ho : o' = o
  · subst ho; simp only [upd_same] at h; exact absurd h (hop _ _ _ _)
  · simp only [upd_ne _ _ ho] at h
    exact ⟨o', off, cnt, data, done, h, hc, hv⟩

theorem Dev.Inv.issueRead {d : Dev O D} (h : d.Inv) (o : O) (off cnt : Nat) : (d.issueRead o off cnt).Inv := by
  constructor
  · exact h.vol_pers
  · intro o' snap ho x
    by_cases hne : o' = o
    · subst hne; simp [Dev.issueRead] at ho
    · simp only [Dev.issueRead, upd_ne _ _ hne] at ho
      exact h.vol_snap o' snap ho x
  · intro x v hf
    exact h.fly_pers x v (inflight_mono_upd (by simp) hf)
  · intro o' snap ho x v hf
    by_cases hne : o' = o
    · subst hne; simp [Dev.issueRead] at ho
    · simp only [Dev.issueRead, upd_ne _ _ hne] at ho
      exact h.fly_snap o' snap ho x v (inflight_mono_upd (by simp) hf)

theorem inflight_issueWrite {d : Dev O D} {o : O} {off cnt : Nat} {data : Nat → D} {x : Nat} {v : D}
    (h : (d.issueWrite o off cnt data).inflight x v) : d.inflight x v ∨ (covers off cnt x ∧ v = data x) := by
  obtain ⟨o', a, b, dt, dn, h, hc, hv⟩ := h
  by_cases hne : o' = o
  · subst hne
    rw [ops_issueWrite_same] at h
    simp only [Option.some.injEq, Op.write.injEq] at h
    obtain ⟨rfl, rfl, rfl, rfl⟩ := h
    exact Or.inr ⟨hc, hv⟩
  · rw [issueWrite_write hne] at h
    exact Or.inl ⟨o', a, b, dt, dn, h, hc, hv⟩

theorem Dev.Inv.issueWrite {d : Dev O D} (h : d.Inv) (o : O) (off cnt : Nat) (data : Nat → D) :
    (d.issueWrite o off cnt data).Inv := by
  constructor
  · intro x; exact Or.inl (h.vol_pers x)
  · intro o' snap ho x
    obtain ⟨-, s0, h0, rfl⟩ := issueWrite_flush ho
    exact Or.inl (h.vol_snap o' s0 h0 x)
  · intro x v hf
    rcases inflight_issueWrite hf with h1 | h1
    · exact Or.inl (h.fly_pers x v h1)
    · exact Or.inr h1
  · intro o' snap ho x v hf
    obtain ⟨-, s0, h0, rfl⟩ := issueWrite_flush ho
    rcases inflight_issueWrite hf with h1 | h1
    · exact Or.inl (h.fly_snap o' s0 h0 x v h1)
    · exact Or.inr h1

theorem inflight_issueFlush {d : Dev O D} {o : O} {x : Nat} {v : D}
    (h : (d.issueFlush o).inflight x v) : d.inflight x v := inflight_mono_upd (by simp) h

theorem Dev.Inv.issueFlush {d : Dev O D} (h : d.Inv) (o : O) : (d.issueFlush o).Inv := by
  constructor
  · exact h.vol_pers
  · intro o' snap ho x
    by_cases hne : o' = o
    · subst hne
      simp only [Dev.issueFlush, upd_same, Option.some.injEq, Op.flush.injEq] at ho
      rw [← ho]; exact Or.inl rfl
    · simp only [Dev.issueFlush, upd_ne _ _ hne] at ho
      exact h.vol_snap o' snap ho x
  · intro x v hf
    exact h.fly_pers x v (inflight_issueFlush hf)
  · intro o' snap ho x v hf
    have hf' := inflight_issueFlush hf
    by_cases hne : o' = o
    · subst hne
      simp only [Dev.issueFlush, upd_same, Option.some.injEq, Op.flush.injEq] at ho
      rw [← ho]; exact Or.inr hf'
    · simp only [Dev.issueFlush, upd_ne _ _ hne] at ho
      exact h.fly_snap o' snap ho x v hf'

theorem Dev.Inv.exec {d : Dev O D} (h : d.Inv) (o : O) (x : Nat) : (d.exec o x).Inv := by
  have hv : ∀ y, (d.exec o x).vol y = d.vol y ∨ d.inflight y ((d.exec o x).vol y) := by
    intro y
    rcases vol_exec (d := d) (o := o) (x := x) (y := y) with h1 | ⟨rfl, off, cnt, data, done, h0, hc, h1⟩
    · exact Or.inl h1
    · exact Or.inr ⟨o, off, cnt, data, done, h0, hc, h1⟩
  constructor
  · intro y
    rw [pers_exec]
    rcases hv y with h1 | h1
    · rw [h1]; exact h.vol_pers y
    · exact h.fly_pers y _ h1
  · intro o' snap ho y
    rw [exec_flush] at ho
    rcases hv y with h1 | h1
    · rw [h1]; exact h.vol_snap o' snap ho y
    · exact h.fly_snap o' snap ho y _ h1
  · intro y v hf
    rw [pers_exec]
    exact h.fly_pers y v (inflight_exec.mp hf)
  · intro o' snap ho y v hf
    rw [exec_flush] at ho
    exact h.fly_snap o' snap ho y v (inflight_exec.mp hf)

theorem inflight_complete {d : Dev O D} {o : O} {ok : Bool} {x : Nat} {v : D}
    (h : (d.complete o ok).inflight x v) : d.inflight x v := by
  obtain ⟨o', off, cnt, data, done, h, hc, hv⟩ := h
  exact ⟨o', off, cnt, data, done, (ops_complete_some h).2, hc, hv⟩

theorem Dev.Inv.complete {d : Dev O D} (h : d.Inv) (o : O) (ok : Bool) : (d.complete o ok).Inv := by
  constructor
  · intro x
    exact ⟨h.vol_pers x, fun snap hs _ => h.vol_snap o snap hs x⟩
  · intro o' snap ho x
    exact h.vol_snap o' snap (ops_complete_some ho).2 x
  · intro x v hf
    exact ⟨h.fly_pers x v (inflight_complete hf), fun snap hs _ => h.fly_snap o snap hs x v (inflight_complete hf)⟩
  · intro o' snap ho x v hf
    exact h.fly_snap o' snap (ops_complete_some ho).2 x v (inflight_complete hf)

theorem pers_complete {d : Dev O D} {o : O} {ok : Bool} {x : Nat} {v : D} (h : (d.complete o ok).pers x v) :
    d.pers x v := h.1

/-! ### Runs of the specification -/

theorem Disk.Run.trans {d d' d'' : Disk D} {es es' : List (Ev D)} (h : Disk.Run d es d') (h' : Disk.Run d' es' d'') :
    Disk.Run d (es ++ es') d'' := by
  induction h' with
  | nil => simpa using h
  | snoc _ hs ih => rw [← List.append_assoc]; exact Disk.Run.snoc ih hs

theorem Disk.Run.one {d d' : Disk D} {es : List (Ev D)} (h : Disk.Step d es d') : Disk.Run d es d' := by
  have := Disk.Run.snoc (Disk.Run.nil d) h
  simpa using this

theorem Disk.Run.step {d d' : Disk D} {es : List (Ev D)} (h : Disk.Step d es d') : Disk.Run d es d' := Disk.Run.one h

end Verif.Disk
