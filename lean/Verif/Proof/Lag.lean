import Verif.Proof.Dev

/-! # A user that takes note of completions late

`d` is a disk whose requests are addressed by channel and id; `t` is the same disk as a user sees it who addresses requests by
owner and to whom some completions have been delivered (`box`) that it has not handled yet. -/

set_option maxRecDepth 8000

namespace Verif.Disk

variable {O D : Type} [DecidableEq O]

/-- Same request; a flush of the user's disk may promise less. -/
inductive Below : Option (Op D) → Option (Op D) → Prop where
  | none : Below none none
  | read (off cnt got) : Below (some (.read off cnt got)) (some (.read off cnt got))
  | write (off cnt data done) : Below (some (.write off cnt data done)) (some (.write off cnt data done))
  | flush (s s' : Nat → D → Prop) (h : ∀ x v, s x v → s' x v) : Below (some (.flush s)) (some (.flush s'))

/-- What is delivered when the request completes. -/
def Op.result (ok : Bool) : Op D → List (Option D)
  | .read off cnt got => if ok then (List.range cnt).map fun i => got (off + i) else []
  | _ => []

theorem Dev.result_eq {d : Dev O D} {o : O} {op : Op D} (h : d.ops o = some op) (ok : Bool) : d.result o ok = op.result ok := by
  unfold Dev.result; rw [h]; cases op <;> rfl

structure Lag (a : O → Nat × Nat) (box : O → Option (Bool × List (Option D))) (d : Disk D) (t : Dev O D) : Prop where
  vol : d.vol = t.vol
  pers : ∀ x v, d.pers x v → t.pers x v
  cover : ∀ p, d.ops p ≠ none → ∃ o, p = a o
  live : ∀ o, box o = none → Below (d.ops (a o)) (t.ops o)
  boxed : ∀ o ok data, box o = some (ok, data) → d.ops (a o) = none ∧ ∃ op, t.ops o = some op ∧ (ok = true → op.finished) ∧
    data = op.result ok ∧ ∀ snap, op = .flush snap → ok = true → ∀ x v, d.pers x v → snap x v

variable {a : O → Nat × Nat} {box : O → Option (Bool × List (Option D))} {d : Disk D} {t : Dev O D}

theorem Lag.fresh (v : Nat → D) : Lag a (fun _ => none) (Dev.fresh v) (Dev.fresh v : Dev O D) :=
  ⟨rfl, fun _ _ h => h, fun _ h => absurd rfl h, fun _ _ => .none, fun _ _ _ h => by cases h⟩

theorem Lag.survives (h : Lag a box d t) {v : Nat → D} (hs : d.survives v) : t.survives v := fun x => h.pers x _ (hs x)

theorem Lag.free (h : Lag a box d t) {o : O} (ho : t.ops o = none) : box o = none := by
  rcases hb : box o with _ | ⟨ok, data⟩
  · rfl
  · obtain ⟨-, op, h1, -⟩ := h.boxed o ok data hb
    rw [ho] at h1; cases h1

theorem Below.addSnap {x y : Option (Op D)} (h : Below x y) (off cnt : Nat) (data : Nat → D) :
    Below (x.map (Op.addSnap off cnt data)) (y.map (Op.addSnap off cnt data)) := by
  cases h with
  | none => exact .none
  | read => exact .read _ _ _
  | write => exact .write _ _ _ _
  | flush s s' h => exact .flush _ _ fun x v hx => hx.imp (h x v) id

theorem addSnap_finished {op : Op D} {off cnt : Nat} {data : Nat → D} : (op.addSnap off cnt data).finished ↔ op.finished := by
  cases op <;> exact Iff.rfl

theorem addSnap_result {op : Op D} {off cnt : Nat} {data : Nat → D} {ok : Bool} :
    (op.addSnap off cnt data).result ok = op.result ok := by
  cases op <;> rfl

theorem Lag.inflight (h : Lag a box d t) {x : Nat} {v : D} (hv : d.inflight x v) : t.inflight x v := by
  obtain ⟨p, off, cnt, data, done, h1, h2, h3⟩ := hv
  obtain ⟨o, rfl⟩ := h.cover p (by rw [h1]; simp)
  rcases hb : box o with _ | ⟨ok, dt⟩
  · have := h.live o hb
    rw [h1] at this
    generalize ht : t.ops o = y at this
    cases this
    exact ⟨o, off, cnt, data, done, ht, h2, h3⟩
  · rw [(h.boxed o ok dt hb).1] at h1; cases h1

/-- Both sides take a request. -/
def Dev.issue (t : Dev O D) (o : O) : Req D → Dev O D
  | .read off cnt => t.issueRead o off cnt
  | .write off cnt data => t.issueWrite o off cnt data
  | .flush => t.issueFlush o

theorem Lag.issue (ha : Function.Injective a) (h : Lag a box d t) {o : O} (r : Req D) (ho : t.ops o = none) :
    Lag a box (Disk.issue d (a o) r) (t.issue o r) := by
  have hbo := h.free ho
  have hne : ∀ {o'}, o' ≠ o → a o' ≠ a o := fun hn e => hn (ha e)
  cases r with
  | read off cnt =>
    refine ⟨h.vol, h.pers, fun p hp => ?_, fun o' hb => ?_, fun o' ok data hb => ?_⟩
    · by_cases e : p = a o
      · exact ⟨o, e⟩
      · exact h.cover p (by simpa [Disk.issue, Dev.issueRead, upd_ne _ _ e] using hp)
    · by_cases e : o' = o
      · subst e; simp only [Disk.issue, Dev.issue, Dev.issueRead, upd_same]; exact .read _ _ _
      · simp only [Disk.issue, Dev.issue, Dev.issueRead, upd_ne _ _ e, upd_ne _ _ (hne e)]; exact h.live o' hb
    · have e : o' ≠ o := fun e => by rw [e, hbo] at hb; cases hb
      simp only [Disk.issue, Dev.issue, Dev.issueRead, upd_ne _ _ e, upd_ne _ _ (hne e)]
      exact h.boxed o' ok data hb
  | write off cnt dt =>
    refine ⟨h.vol, fun x v hx => hx.imp (h.pers x v) id, fun p hp => ?_, fun o' hb => ?_, fun o' ok data hb => ?_⟩
    · by_cases e : p = a o
      · exact ⟨o, e⟩
      · exact h.cover p (by simpa [Disk.issue, Dev.issueWrite, upd_ne _ _ e] using hp)
    · by_cases e : o' = o
      · subst e; simp only [Disk.issue, Dev.issue, Dev.issueWrite, upd_same]; exact .write _ _ _ _
      · simp only [Disk.issue, Dev.issue, Dev.issueWrite, upd_ne _ _ e, upd_ne _ _ (hne e)]; exact (h.live o' hb).addSnap _ _ _
    · have e : o' ≠ o := fun e => by rw [e, hbo] at hb; cases hb
      simp only [Disk.issue, Dev.issue, Dev.issueWrite, upd_ne _ _ e, upd_ne _ _ (hne e)]
      obtain ⟨h1, op, h2, h3, h4, h5⟩ := h.boxed o' ok data hb
      refine ⟨by rw [h1]; rfl, op.addSnap off cnt dt, by rw [h2]; rfl, fun hk => addSnap_finished.2 (h3 hk), by rw [addSnap_result]; exact h4, ?_⟩
      intro snap hs hk x v hv
      obtain ⟨s0, h6, rfl⟩ := addSnap_flush hs
      exact hv.imp (h5 s0 h6 hk x v) id
  | flush =>
    refine ⟨h.vol, h.pers, fun p hp => ?_, fun o' hb => ?_, fun o' ok data hb => ?_⟩
    · by_cases e : p = a o
      · exact ⟨o, e⟩
      · exact h.cover p (by simpa [Disk.issue, Dev.issueFlush, upd_ne _ _ e] using hp)
    · by_cases e : o' = o
      · subst e; simp only [Disk.issue, Dev.issue, Dev.issueFlush, upd_same]
        exact .flush _ _ fun x v hx => hx.imp (fun e => by rw [e, h.vol]) h.inflight
      · simp only [Disk.issue, Dev.issue, Dev.issueFlush, upd_ne _ _ e, upd_ne _ _ (hne e)]; exact h.live o' hb
    · have e : o' ≠ o := fun e => by rw [e, hbo] at hb; cases hb
      simp only [Disk.issue, Dev.issue, Dev.issueFlush, upd_ne _ _ e, upd_ne _ _ (hne e)]
      exact h.boxed o' ok data hb

theorem exec_none {d : Dev O D} {o : O} (h : d.ops o = none) (x : Nat) : d.exec o x = d := by
  unfold Dev.exec; rw [h]

/-- The disk transfers a sector: so does the user's, unless there is nothing to transfer. -/
theorem Lag.exec (ha : Function.Injective a) (h : Lag a box d t) (p : Nat × Nat) (x : Nat) :
    Lag a box (Dev.exec d p x) t ∨ ∃ o, p = a o ∧ Lag a box (Dev.exec d p x) (t.exec o x) := by
  by_cases hp : d.ops p = none
  · exact .inl (by rw [exec_none hp]; exact h)
  obtain ⟨o, rfl⟩ := h.cover p hp
  refine .inr ⟨o, rfl, ?_⟩
  have hbo : box o = none := by
    rcases hb : box o with _ | ⟨ok, dt⟩
    · rfl
    · exact absurd (h.boxed o ok dt hb).1 hp
  have hne : ∀ {o'}, o' ≠ o → a o' ≠ a o := fun hn e => hn (ha e)
  have hl := h.live o hbo
  generalize hx : d.ops (a o) = dx at hl
  generalize ht : t.ops o = tx at hl
  cases hl with
  | none => exact absurd hx hp
  | flush s s' hs =>
    have e1 : d.exec (a o) x = d := by unfold Dev.exec; rw [hx]
    have e2 : t.exec o x = t := by unfold Dev.exec; rw [ht]
    rw [e1, e2]; exact h
  | read off cnt got =>
    by_cases hc : covers off cnt x
    · have e1 : d.exec (a o) x = { d with ops := upd d.ops (a o) (some (.read off cnt (upd got x (some (d.vol x))))) } := by
        unfold Dev.exec; rw [hx]; simp [hc]
      have e2 : t.exec o x = { t with ops := upd t.ops o (some (.read off cnt (upd got x (some (t.vol x))))) } := by
        unfold Dev.exec; rw [ht]; simp [hc]
      rw [e1, e2]
      refine ⟨h.vol, h.pers, fun p hp' => ?_, fun o' hb => ?_, fun o' ok data hb => ?_⟩
      · by_cases e : p = a o
        · exact ⟨o, e⟩
        · exact h.cover p (by simpa [upd_ne _ _ e] using hp')
      · by_cases e : o' = o
        · subst e; simp only [upd_same, h.vol]; exact .read _ _ _
        · simp only [upd_ne _ _ e, upd_ne _ _ (hne e)]; exact h.live o' hb
      · have e : o' ≠ o := fun e => by rw [e, hbo] at hb; cases hb
        simp only [upd_ne _ _ e, upd_ne _ _ (hne e)]
        exact h.boxed o' ok data hb
    · have e1 : d.exec (a o) x = d := by unfold Dev.exec; rw [hx]; simp [hc]
      have e2 : t.exec o x = t := by unfold Dev.exec; rw [ht]; simp [hc]
      rw [e1, e2]; exact h
  | write off cnt dt done =>
    by_cases hc : covers off cnt x
    · have e1 : d.exec (a o) x = { d with vol := upd d.vol x (dt x), ops := upd d.ops (a o) (some (.write off cnt dt (upd done x true))) } := by
        unfold Dev.exec; rw [hx]; simp [hc]
      have e2 : t.exec o x = { t with vol := upd t.vol x (dt x), ops := upd t.ops o (some (.write off cnt dt (upd done x true))) } := by
        unfold Dev.exec; rw [ht]; simp [hc]
      rw [e1, e2]
      refine ⟨by simp only [h.vol], h.pers, fun p hp' => ?_, fun o' hb => ?_, fun o' ok data hb => ?_⟩
      · by_cases e : p = a o
        · exact ⟨o, e⟩
        · exact h.cover p (by simpa [upd_ne _ _ e] using hp')
      · by_cases e : o' = o
        · subst e; simp only [upd_same]; exact .write _ _ _ _
        · simp only [upd_ne _ _ e, upd_ne _ _ (hne e)]; exact h.live o' hb
      · have e : o' ≠ o := fun e => by rw [e, hbo] at hb; cases hb
        simp only [upd_ne _ _ e, upd_ne _ _ (hne e)]
        exact h.boxed o' ok data hb
    · have e1 : d.exec (a o) x = d := by unfold Dev.exec; rw [hx]; simp [hc]
      have e2 : t.exec o x = t := by unfold Dev.exec; rw [ht]; simp [hc]
      rw [e1, e2]; exact h

/-- The disk completes a request; the user has not looked yet. -/
theorem Lag.respond (ha : Function.Injective a) (h : Lag a box d t) {p : Nat × Nat} {ok : Bool} (hm : Dev.mayComplete d p ok) :
    ∃ o, p = a o ∧ box o = none ∧ Lag a (upd box o (some (ok, Dev.result d p ok))) (Dev.complete d p ok) t := by
  obtain ⟨dop, h1, h2⟩ := hm
  obtain ⟨o, rfl⟩ := h.cover p (by rw [h1]; simp)
  have hbo : box o = none := by
    rcases hb : box o with _ | ⟨ok, dt⟩
    · rfl
    · rw [(h.boxed o ok dt hb).1] at h1; cases h1
  have hne : ∀ {o'}, o' ≠ o → a o' ≠ a o := fun hn e => hn (ha e)
  refine ⟨o, rfl, hbo, ?_⟩
  have hsub : ∀ x v, (Dev.complete d (a o) ok).pers x v → d.pers x v := fun x v hx => hx.1
  refine ⟨h.vol, fun x v hx => h.pers x v (hsub x v hx), fun p hp => ?_, fun o' hb => ?_, fun o' ok' data hb => ?_⟩
  · by_cases e : p = a o
    · exact ⟨o, e⟩
    · exact h.cover p (by simpa [Dev.complete, upd_ne _ _ e] using hp)
  · have e : o' ≠ o := fun e => by rw [e, upd_same] at hb; cases hb
    rw [upd_ne _ _ e] at hb
    simp only [Dev.complete, upd_ne _ _ (hne e)]
    exact h.live o' hb
  · by_cases e : o' = o
    · subst e
      rw [upd_same] at hb
      simp only [Option.some.injEq, Prod.mk.injEq] at hb
      obtain ⟨rfl, rfl⟩ := hb
      refine ⟨by simp [Dev.complete], ?_⟩
      have hl := h.live o' hbo
      rw [h1] at hl
      generalize ht : t.ops o' = tx at hl
      cases hl with
      | read off cnt got =>
        exact ⟨_, rfl, h2, Dev.result_eq h1 ok, fun snap hs => by cases hs⟩
      | write off cnt dt done =>
        exact ⟨_, rfl, h2, Dev.result_eq h1 ok, fun snap hs => by cases hs⟩
      | flush s s' hs =>
        refine ⟨_, rfl, fun _ => trivial, Dev.result_eq h1 ok, fun snap he hk x v hv => ?_⟩
        cases he
        exact hs x v (hv.2 s h1 hk)
    · rw [upd_ne _ _ e] at hb
      obtain ⟨g1, op, g2, g3, g4, g5⟩ := h.boxed o' ok' data hb
      exact ⟨by simp [Dev.complete, upd_ne _ _ (hne e), g1], op, g2, g3, g4, fun snap hs hk x v hv => g5 snap hs hk x v (hsub x v hv)⟩

/-- The user handles a delivered completion. -/
theorem Lag.handle (ha : Function.Injective a) (h : Lag a box d t) {o : O} {ok : Bool} {data : List (Option D)} (hb : box o = some (ok, data)) :
    t.mayComplete o ok ∧ t.result o ok = data ∧ Lag a (upd box o none) d (t.complete o ok) := by
  obtain ⟨h1, op, h2, h3, h4, h5⟩ := h.boxed o ok data hb
  have hne : ∀ {o'}, o' ≠ o → a o' ≠ a o := fun hn e => hn (ha e)
  refine ⟨⟨op, h2, h3⟩, by rw [Dev.result_eq h2, h4], h.vol, fun x v hx => ⟨h.pers x v hx, fun snap hs hk => ?_⟩, h.cover, fun o' hb' => ?_, fun o' ok' data' hb' => ?_⟩
  · rw [h2, Option.some.injEq] at hs
    exact h5 snap hs hk x v hx
  · by_cases e : o' = o
    · subst e; simp only [Dev.complete, upd_same, h1]; exact .none
    · rw [upd_ne _ _ e] at hb'
      simp only [Dev.complete, upd_ne _ _ e]; exact h.live o' hb'
  · have e : o' ≠ o := fun e => by rw [e, upd_same] at hb'; cases hb'
    rw [upd_ne _ _ e] at hb'
    simp only [Dev.complete, upd_ne _ _ e]
    exact h.boxed o' ok' data' hb'

end Verif.Disk
