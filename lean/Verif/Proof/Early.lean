import Verif.Proof.Lag

/-! # A user whose requests reach the disk late

`u` is the disk `t` as seen by a user whose requests count as issued although some of them (`k`) have not been passed on to `t`. -/

set_option maxRecDepth 8000

namespace Verif.Disk

variable {O D : Type} [DecidableEq O]

/-- A request in flight nothing of which has been transferred. -/
def Waiting : Req D → Option (Op D) → Prop
  | .read off cnt, y => y = some (.read off cnt fun _ => none)
  | .write off cnt data, y => y = some (.write off cnt data fun _ => false)
  | .flush, y => ∃ snap, y = some (.flush snap)

structure Early (k : O → Option (Req D)) (t u : Dev O D) : Prop where
  inv : u.Inv
  vol : u.vol = t.vol
  pers : ∀ x v, t.pers x v → u.pers x v
  live : ∀ o, k o = none → Below (t.ops o) (u.ops o)
  wait : ∀ o r, k o = some r → t.ops o = none ∧ Waiting r (u.ops o)

variable {k : O → Option (Req D)} {t u : Dev O D}

theorem Early.fresh (v : Nat → D) : Early (fun _ => none) (Dev.fresh v : Dev O D) (Dev.fresh v) :=
  ⟨Dev.Inv.fresh v, rfl, fun _ _ h => h, fun _ _ => .none, fun _ _ h => by (cases h)⟩

theorem Early.survives (h : Early k t u) {v : Nat → D} (hs : t.survives v) : u.survives v := fun x => h.pers x _ (hs x)

theorem Early.inflight (h : Early k t u) {x : Nat} {v : D} (hv : t.inflight x v) : u.inflight x v := by
  obtain ⟨o, off, cnt, data, done, h1, h2, h3⟩ := hv
  cases hk : k o with
  | some r => rw [(h.wait o r hk).1] at h1; cases h1
  | none =>
    have := h.live o hk
    rw [h1] at this
    generalize hu : u.ops o = y at this
    cases this
    exact ⟨o, off, cnt, data, done, hu, h2, h3⟩

theorem Below.addRight {x y : Option (Op D)} (h : Below x y) (off cnt : Nat) (data : Nat → D) :
    Below x (y.map (Op.addSnap off cnt data)) := by
  cases h with
  | none => exact .none
  | read => exact .read _ _ _
  | write => exact .write _ _ _ _
  | flush s s' h => exact .flush _ _ fun x v hx => .inl (h x v hx)

theorem Waiting.addSnap {r : Req D} {y : Option (Op D)} (h : Waiting r y) (off cnt : Nat) (data : Nat → D) :
    Waiting r (y.map (Op.addSnap off cnt data)) := by
  cases r with
  | read => rw [show y = _ from h]; rfl
  | write => rw [show y = _ from h]; rfl
  | flush => obtain ⟨s, rfl⟩ := h; exact ⟨_, rfl⟩

theorem Dev.Inv.issue {d : Dev O D} (h : d.Inv) (o : O) (r : Req D) : (d.issue o r).Inv := by
  cases r with
  | read => exact h.issueRead _ _ _
  | write => exact h.issueWrite _ _ _ _
  | flush => exact h.issueFlush _

/-- The user issues a request that is not passed on yet. -/
theorem Early.ask (h : Early k t u) {o : O} (r : Req D) (hk : k o = none) (ho : u.ops o = none) :
    Early (upd k o (some r)) t (u.issue o r) := by
  have hto : t.ops o = none := by
    have := h.live o hk
    rw [ho] at this
    generalize t.ops o = y at this
    cases this; rfl
  refine ⟨h.inv.issue o r, ?_, ?_, ?_, ?_⟩
  · cases r <;> exact h.vol
  · intro x v hx
    cases r with
    | read => exact h.pers x v hx
    | write => exact .inl (h.pers x v hx)
    | flush => exact h.pers x v hx
  · intro o' hk'
    have e : o' ≠ o := fun e => by rw [e, upd_same] at hk'; cases hk'
    rw [upd_ne _ _ e] at hk'
    cases r with
    | read => simp only [Dev.issue, Dev.issueRead, upd_ne _ _ e]; exact h.live o' hk'
    | write => simp only [Dev.issue, Dev.issueWrite, upd_ne _ _ e]; exact (h.live o' hk').addRight _ _ _
    | flush => simp only [Dev.issue, Dev.issueFlush, upd_ne _ _ e]; exact h.live o' hk'
  · intro o' r' hk'
    by_cases e : o' = o
    · subst e
      rw [upd_same, Option.some.injEq] at hk'
      subst hk'
      refine ⟨hto, ?_⟩
      cases r with
      | read => simp [Waiting, Dev.issue, Dev.issueRead]
      | write => simp [Waiting, Dev.issue, Dev.issueWrite]
      | flush => simp [Waiting, Dev.issue, Dev.issueFlush]
    · rw [upd_ne _ _ e] at hk'
      obtain ⟨h1, h2⟩ := h.wait o' r' hk'
      refine ⟨h1, ?_⟩
      cases r with
      | read => simp only [Dev.issue, Dev.issueRead, upd_ne _ _ e]; exact h2
      | write => simp only [Dev.issue, Dev.issueWrite, upd_ne _ _ e]; exact h2.addSnap _ _ _
      | flush => simp only [Dev.issue, Dev.issueFlush, upd_ne _ _ e]; exact h2

/-- The request is passed on. -/
theorem Early.issue (h : Early k t u) {o : O} {r : Req D} (hk : k o = some r) : Early (upd k o none) (t.issue o r) u := by
  obtain ⟨hto, hw⟩ := h.wait o r hk
  refine ⟨h.inv, ?_, ?_, ?_, ?_⟩
  · cases r <;> exact h.vol
  · intro x v hx
    cases r with
    | read => exact h.pers x v hx
    | write off cnt data =>
      rcases hx with hx | ⟨hc, rfl⟩
      · exact h.pers x v hx
      · exact h.inv.fly_pers x _ ⟨o, off, cnt, data, _, hw, hc, rfl⟩
    | flush => exact h.pers x v hx
  · intro o' hk'
    by_cases e : o' = o
    · subst e
      cases r with
      | read => rw [show u.ops o' = _ from hw]; simp only [Dev.issue, Dev.issueRead, upd_same]; exact .read _ _ _
      | write => rw [show u.ops o' = _ from hw]; simp only [Dev.issue, Dev.issueWrite, upd_same]; exact .write _ _ _ _
      | flush =>
        obtain ⟨snap, hs⟩ := hw
        rw [hs]
        simp only [Dev.issue, Dev.issueFlush, upd_same]
        refine .flush _ _ fun x v hx => ?_
        rcases hx with rfl | hx
        · rw [← h.vol]; exact h.inv.vol_snap o' snap hs x
        · exact h.inv.fly_snap o' snap hs x v (h.inflight hx)
    · rw [upd_ne _ _ e] at hk'
      have hl := h.live o' hk'
      cases r with
      | read => simp only [Dev.issue, Dev.issueRead, upd_ne _ _ e]; exact hl
      | flush => simp only [Dev.issue, Dev.issueFlush, upd_ne _ _ e]; exact hl
      | write off cnt data =>
        simp only [Dev.issue, Dev.issueWrite, upd_ne _ _ e]
        generalize hx : t.ops o' = tx at hl
        generalize hu : u.ops o' = ux at hl
        cases hl with
        | none => exact .none
        | read => exact .read _ _ _
        | write => exact .write _ _ _ _
        | flush s s' hs =>
          refine .flush _ _ fun x v hv => ?_
          rcases hv with hv | ⟨hc, rfl⟩
          · exact hs x v hv
          · exact h.inv.fly_snap o' s' hu x _ ⟨o, off, cnt, data, _, hw, hc, rfl⟩
  · intro o' r' hk'
    have e : o' ≠ o := fun e => by rw [e, upd_same] at hk'; cases hk'
    rw [upd_ne _ _ e] at hk'
    obtain ⟨h1, h2⟩ := h.wait o' r' hk'
    refine ⟨?_, h2⟩
    cases r with
    | read => simp only [Dev.issue, Dev.issueRead, upd_ne _ _ e]; exact h1
    | write => simp only [Dev.issue, Dev.issueWrite, upd_ne _ _ e, h1]; rfl
    | flush => simp only [Dev.issue, Dev.issueFlush, upd_ne _ _ e]; exact h1

/-- The disk transfers a sector: so does the user's, unless there is nothing to transfer. -/
theorem Early.exec (h : Early k t u) (o : O) (x : Nat) : Early k (t.exec o x) u ∨ Early k (t.exec o x) (u.exec o x) := by
  cases hk : k o with
  | some r => exact .inl (by rw [exec_none (h.wait o r hk).1]; exact h)
  | none =>
    refine .inr ?_
    have hl := h.live o hk
    have hwt : ∀ o' r, k o' = some r → (t.exec o x).ops o' = none ∧ Waiting r ((u.exec o x).ops o') := by
      intro o' r hk'
      have e : o' ≠ o := fun e => by rw [e, hk] at hk'; cases hk'
      rw [ops_exec_ne _ _ e, ops_exec_ne _ _ e]
      exact h.wait o' r hk'
    have hpers : ∀ y v, (t.exec o x).pers y v → (u.exec o x).pers y v := by
      intro y v hy; rw [pers_exec] at hy ⊢; exact h.pers y v hy
    suffices hs : (u.exec o x).vol = (t.exec o x).vol ∧ Below ((t.exec o x).ops o) ((u.exec o x).ops o) by
      refine ⟨h.inv.exec o x, hs.1, hpers, fun o' hk' => ?_, hwt⟩
      by_cases e : o' = o
      · subst e; exact hs.2
      · rw [ops_exec_ne _ _ e, ops_exec_ne _ _ e]; exact h.live o' hk'
    generalize hx : t.ops o = tx at hl
    generalize hu : u.ops o = ux at hl
    cases hl with
    | none => rw [exec_none hx, exec_none hu, hx, hu]; exact ⟨h.vol, .none⟩
    | flush s s' hs =>
      have e1 : t.exec o x = t := by unfold Dev.exec; rw [hx]
      have e2 : u.exec o x = u := by unfold Dev.exec; rw [hu]
      rw [e1, e2, hx, hu]; exact ⟨h.vol, .flush _ _ hs⟩
    | read off cnt got =>
      by_cases hc : covers off cnt x
      · have e1 : t.exec o x = { t with ops := upd t.ops o (some (.read off cnt (upd got x (some (t.vol x))))) } := by
          unfold Dev.exec; rw [hx]; simp [hc]
        have e2 : u.exec o x = { u with ops := upd u.ops o (some (.read off cnt (upd got x (some (u.vol x))))) } := by
          unfold Dev.exec; rw [hu]; simp [hc]
        rw [e1, e2]
        simp only [upd_same, h.vol]
        exact ⟨trivial, .read _ _ _⟩
      · have e1 : t.exec o x = t := by unfold Dev.exec; rw [hx]; simp [hc]
        have e2 : u.exec o x = u := by unfold Dev.exec; rw [hu]; simp [hc]
        rw [e1, e2, hx, hu]; exact ⟨h.vol, .read _ _ _⟩
    | write off cnt dt done =>
      by_cases hc : covers off cnt x
      · have e1 : t.exec o x = { t with vol := upd t.vol x (dt x), ops := upd t.ops o (some (.write off cnt dt (upd done x true))) } := by
          unfold Dev.exec; rw [hx]; simp [hc]
        have e2 : u.exec o x = { u with vol := upd u.vol x (dt x), ops := upd u.ops o (some (.write off cnt dt (upd done x true))) } := by
          unfold Dev.exec; rw [hu]; simp [hc]
        rw [e1, e2]
        simp only [upd_same, h.vol]
        exact ⟨trivial, .write _ _ _ _⟩
      · have e1 : t.exec o x = t := by unfold Dev.exec; rw [hx]; simp [hc]
        have e2 : u.exec o x = u := by unfold Dev.exec; rw [hu]; simp [hc]
        rw [e1, e2, hx, hu]; exact ⟨h.vol, .write _ _ _ _⟩

/-- A request is answered. -/
theorem Early.complete (h : Early k t u) {o : O} {ok : Bool} (hm : t.mayComplete o ok) :
    k o = none ∧ u.mayComplete o ok ∧ u.result o ok = t.result o ok ∧ Early k (t.complete o ok) (u.complete o ok) := by
  obtain ⟨op, h1, h2⟩ := hm
  have hk : k o = none := by
    cases hk : k o with
    | none => rfl
    | some r => rw [(h.wait o r hk).1] at h1; cases h1
  have hl := h.live o hk
  rw [h1] at hl
  generalize hu : u.ops o = ux at hl
  have hE : (∀ x v, (t.complete o ok).pers x v → (u.complete o ok).pers x v) → Early k (t.complete o ok) (u.complete o ok) := by
    intro hp
    refine ⟨h.inv.complete o ok, h.vol, hp, fun o' hk' => ?_, fun o' r hk' => ?_⟩
    · by_cases e : o' = o
      · subst e; rw [ops_complete_same, ops_complete_same]; exact .none
      · rw [ops_complete_ne _ _ e, ops_complete_ne _ _ e]; exact h.live o' hk'
    · have e : o' ≠ o := fun e => by rw [e, hk] at hk'; cases hk'
      rw [ops_complete_ne _ _ e, ops_complete_ne _ _ e]; exact h.wait o' r hk'
  refine ⟨hk, ?_⟩
  cases hl with
  | read off cnt got =>
    refine ⟨⟨_, hu, h2⟩, by rw [Dev.result_eq hu, Dev.result_eq h1], hE fun x v hx => ⟨h.pers x v hx.1, fun snap hs => ?_⟩⟩
    rw [hu] at hs; cases hs
  | write off cnt dt done =>
    refine ⟨⟨_, hu, h2⟩, by rw [Dev.result_eq hu, Dev.result_eq h1], hE fun x v hx => ⟨h.pers x v hx.1, fun snap hs => ?_⟩⟩
    rw [hu] at hs; cases hs
  | flush s s' hs =>
    refine ⟨⟨_, hu, h2⟩, by rw [Dev.result_eq hu, Dev.result_eq h1]; rfl, hE fun x v hx => ⟨h.pers x v hx.1, fun snap hsn hk' => ?_⟩⟩
    rw [hu] at hsn; cases hsn
    exact hs x v (hx.2 s h1 hk')

end Verif.Disk
