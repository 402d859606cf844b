import Verif.Proof.Lag

/-! # A disk whose requests go by other names

`u` is the disk `t` as seen by a user who has names of its own for the requests in flight; `k` gives the user's name of each
request of `t`. Names are assigned when a request is issued and free again when it is answered. -/

set_option maxRecDepth 8000

namespace Verif.Disk

variable {P O D : Type} [DecidableEq P] [DecidableEq O]

structure Ren (k : P → Option O) (t : Dev P D) (u : Dev O D) : Prop where
  inj : ∀ p p' o, k p = some o → k p' = some o → p = p'
  vol : u.vol = t.vol
  pers : ∀ x v, t.pers x v → u.pers x v
  free : ∀ p, k p = none → t.ops p = none
  live : ∀ p o, k p = some o → Below (t.ops p) (u.ops o)
  cover : ∀ o, u.ops o ≠ none → ∃ p, k p = some o

variable {k : P → Option O} {t : Dev P D} {u : Dev O D}

theorem Ren.fresh (v : Nat → D) : Ren (fun _ => none) (Dev.fresh v : Dev P D) (Dev.fresh v : Dev O D) :=
  ⟨fun _ _ _ h => by (cases h), rfl, fun _ _ h => h, fun _ _ => rfl, fun _ _ h => by (cases h), fun _ h => absurd rfl h⟩

theorem Ren.survives (h : Ren k t u) {v : Nat → D} (hs : t.survives v) : u.survives v := fun x => h.pers x _ (hs x)

theorem Ren.inflight (h : Ren k t u) {x : Nat} {v : D} (hv : t.inflight x v) : u.inflight x v := by
  obtain ⟨p, off, cnt, data, done, h1, h2, h3⟩ := hv
  cases hk : k p with
  | none => rw [h.free p hk] at h1; cases h1
  | some o =>
    have := h.live p o hk
    rw [h1] at this
    generalize hu : u.ops o = y at this
    cases this
    exact ⟨o, off, cnt, data, done, hu, h2, h3⟩

theorem Ren.inj_upd (h : Ren k t u) {p : P} {o : O} (hk : ∀ p', k p' ≠ some o) :
    ∀ p1 p2 o', upd k p (some o) p1 = some o' → upd k p (some o) p2 = some o' → p1 = p2 := by
  intro p1 p2 o' h1 h2
  by_cases e1 : p1 = p
  · by_cases e2 : p2 = p
    · rw [e1, e2]
    · subst e1
      rw [upd_same, Option.some.injEq] at h1
      subst h1
      rw [upd_ne _ _ e2] at h2
      exact absurd h2 (hk _)
  · by_cases e2 : p2 = p
    · subst e2
      rw [upd_same, Option.some.injEq] at h2
      subst h2
      rw [upd_ne _ _ e1] at h1
      exact absurd h1 (hk _)
    · rw [upd_ne _ _ e1] at h1
      rw [upd_ne _ _ e2] at h2
      exact h.inj _ _ _ h1 h2

/-- A request is issued under a new name. -/
theorem Ren.issue (h : Ren k t u) {p : P} {o : O} (r : Req D) (hp : k p = none) (ho : ∀ p', k p' ≠ some o) :
    u.ops o = none ∧ Ren (upd k p (some o)) (t.issue p r) (u.issue o r) := by
  have huo : u.ops o = none := by
    cases hu : u.ops o with
    | none => rfl
    | some op => obtain ⟨p', hp'⟩ := h.cover o (by rw [hu]; simp); exact absurd hp' (ho p')
  have hne : ∀ {p' o'}, p' ≠ p → k p' = some o' → o' ≠ o := fun _ hk e => ho _ (e ▸ hk)
  refine ⟨huo, ?_⟩
  cases r with
  | read off cnt =>
    refine ⟨h.inj_upd ho, h.vol, h.pers, fun p' hp' => ?_, fun p' o' hp' => ?_, fun o' ho' => ?_⟩
    · by_cases e : p' = p
      · subst e; rw [upd_same] at hp'; cases hp'
      · rw [upd_ne _ _ e] at hp'; simp only [Dev.issue, Dev.issueRead, upd_ne _ _ e]; exact h.free p' hp'
    · by_cases e : p' = p
      · subst e; rw [upd_same, Option.some.injEq] at hp'; subst hp'
        simp only [Dev.issue, Dev.issueRead, upd_same]; exact .read _ _ _
      · rw [upd_ne _ _ e] at hp'
        simp only [Dev.issue, Dev.issueRead, upd_ne _ _ e, upd_ne _ _ (hne e hp')]; exact h.live p' o' hp'
    · by_cases e : o' = o
      · subst e; exact ⟨p, upd_same _ _ _⟩
      · obtain ⟨p', hp'⟩ := h.cover o' (by simpa [Dev.issue, Dev.issueRead, upd_ne _ _ e] using ho')
        exact ⟨p', by rw [upd_ne _ _ (fun e' => by rw [e', hp] at hp'; cases hp')]; exact hp'⟩
  | write off cnt dt =>
    refine ⟨h.inj_upd ho, h.vol, fun x v hx => hx.imp (h.pers x v) id, fun p' hp' => ?_, fun p' o' hp' => ?_, fun o' ho' => ?_⟩
    · by_cases e : p' = p
      · subst e; rw [upd_same] at hp'; cases hp'
      · rw [upd_ne _ _ e] at hp'; simp only [Dev.issue, Dev.issueWrite, upd_ne _ _ e, h.free p' hp']; rfl
    · by_cases e : p' = p
      · subst e; rw [upd_same, Option.some.injEq] at hp'; subst hp'
        simp only [Dev.issue, Dev.issueWrite, upd_same]; exact .write _ _ _ _
      · rw [upd_ne _ _ e] at hp'
        simp only [Dev.issue, Dev.issueWrite, upd_ne _ _ e, upd_ne _ _ (hne e hp')]; exact (h.live p' o' hp').addSnap _ _ _
    · by_cases e : o' = o
      · subst e; exact ⟨p, upd_same _ _ _⟩
      · obtain ⟨p', hp'⟩ := h.cover o' (by simpa [Dev.issue, Dev.issueWrite, upd_ne _ _ e] using ho')
        exact ⟨p', by rw [upd_ne _ _ (fun e' => by rw [e', hp] at hp'; cases hp')]; exact hp'⟩
  | flush =>
    refine ⟨h.inj_upd ho, h.vol, h.pers, fun p' hp' => ?_, fun p' o' hp' => ?_, fun o' ho' => ?_⟩
    · by_cases e : p' = p
      · subst e; rw [upd_same] at hp'; cases hp'
      · rw [upd_ne _ _ e] at hp'; simp only [Dev.issue, Dev.issueFlush, upd_ne _ _ e]; exact h.free p' hp'
    · by_cases e : p' = p
      · subst e; rw [upd_same, Option.some.injEq] at hp'; subst hp'
        simp only [Dev.issue, Dev.issueFlush, upd_same]
        exact .flush _ _ fun x v hx => hx.imp (fun e => by rw [e, h.vol]) h.inflight
      · rw [upd_ne _ _ e] at hp'
        simp only [Dev.issue, Dev.issueFlush, upd_ne _ _ e, upd_ne _ _ (hne e hp')]; exact h.live p' o' hp'
    · by_cases e : o' = o
      · subst e; exact ⟨p, upd_same _ _ _⟩
      · obtain ⟨p', hp'⟩ := h.cover o' (by simpa [Dev.issue, Dev.issueFlush, upd_ne _ _ e] using ho')
        exact ⟨p', by rw [upd_ne _ _ (fun e' => by rw [e', hp] at hp'; cases hp')]; exact hp'⟩

/-- The disk transfers a sector: so does the user's, unless there is nothing to transfer. -/
theorem Ren.exec (h : Ren k t u) (p : P) (x : Nat) : Ren k (t.exec p x) u ∨ ∃ o, k p = some o ∧ Ren k (t.exec p x) (u.exec o x) := by
  cases hk : k p with
  | none => exact .inl (by rw [exec_none (h.free p hk)]; exact h)
  | some o =>
    refine .inr ⟨o, rfl, ?_⟩
    have hne : ∀ {p' o'}, p' ≠ p → k p' = some o' → o' ≠ o := fun hn hk' e => hn (h.inj _ _ _ hk' (e ▸ hk))
    have hl := h.live p o hk
    generalize hx : t.ops p = tx at hl
    generalize hu : u.ops o = ux at hl
    cases hl with
    | none => rw [exec_none hx, exec_none hu]; exact h
    | flush s s' hs =>
      have e1 : t.exec p x = t := by unfold Dev.exec; rw [hx]
      have e2 : u.exec o x = u := by unfold Dev.exec; rw [hu]
      rw [e1, e2]; exact h
    | read off cnt got =>
      by_cases hc : covers off cnt x
      · have e1 : t.exec p x = { t with ops := upd t.ops p (some (.read off cnt (upd got x (some (t.vol x))))) } := by
          unfold Dev.exec; rw [hx]; simp [hc]
        have e2 : u.exec o x = { u with ops := upd u.ops o (some (.read off cnt (upd got x (some (u.vol x))))) } := by
          unfold Dev.exec; rw [hu]; simp [hc]
        rw [e1, e2]
        refine ⟨h.inj, h.vol, h.pers, fun p' hp' => ?_, fun p' o' hp' => ?_, fun o' ho' => ?_⟩
        · have e : p' ≠ p := fun e => by rw [e, hk] at hp'; cases hp'
          simp only [upd_ne _ _ e]; exact h.free p' hp'
        · by_cases e : p' = p
          · subst e; rw [hk, Option.some.injEq] at hp'; subst hp'
            simp only [upd_same, h.vol]; exact .read _ _ _
          · simp only [upd_ne _ _ e, upd_ne _ _ (hne e hp')]; exact h.live p' o' hp'
        · by_cases e : o' = o
          · subst e; exact ⟨p, hk⟩
          · exact h.cover o' (by simpa [upd_ne _ _ e] using ho')
      · have e1 : t.exec p x = t := by unfold Dev.exec; rw [hx]; simp [hc]
        have e2 : u.exec o x = u := by unfold Dev.exec; rw [hu]; simp [hc]
        rw [e1, e2]; exact h
    | write off cnt dt done =>
      by_cases hc : covers off cnt x
      · have e1 : t.exec p x = { t with vol := upd t.vol x (dt x), ops := upd t.ops p (some (.write off cnt dt (upd done x true))) } := by
          unfold Dev.exec; rw [hx]; simp [hc]
        have e2 : u.exec o x = { u with vol := upd u.vol x (dt x), ops := upd u.ops o (some (.write off cnt dt (upd done x true))) } := by
          unfold Dev.exec; rw [hu]; simp [hc]
        rw [e1, e2]
        refine ⟨h.inj, by simp only [h.vol], h.pers, fun p' hp' => ?_, fun p' o' hp' => ?_, fun o' ho' => ?_⟩
        · have e : p' ≠ p := fun e => by rw [e, hk] at hp'; cases hp'
          simp only [upd_ne _ _ e]; exact h.free p' hp'
        · by_cases e : p' = p
          · subst e; rw [hk, Option.some.injEq] at hp'; subst hp'
            simp only [upd_same]; exact .write _ _ _ _
          · simp only [upd_ne _ _ e, upd_ne _ _ (hne e hp')]; exact h.live p' o' hp'
        · by_cases e : o' = o
          · subst e; exact ⟨p, hk⟩
          · exact h.cover o' (by simpa [upd_ne _ _ e] using ho')
      · have e1 : t.exec p x = t := by unfold Dev.exec; rw [hx]; simp [hc]
        have e2 : u.exec o x = u := by unfold Dev.exec; rw [hu]; simp [hc]
        rw [e1, e2]; exact h

/-- A request is answered and its name is free again; the user may take a successful read for a failed one. -/
theorem Ren.complete (h : Ren k t u) {p : P} {o : O} {ok ok' : Bool} (hk : k p = some o) (hm : t.mayComplete p ok)
    (hok : ok' = true → ok = true) :
    u.mayComplete o ok' ∧ (ok' = ok → u.result o ok' = t.result p ok) ∧ Ren (upd k p none) (t.complete p ok) (u.complete o ok') ∨
    ok' ≠ ok ∧ ∃ snap, t.ops p = some (.flush snap) := by
  obtain ⟨op, h1, h2⟩ := hm
  have hl := h.live p o hk
  rw [h1] at hl
  generalize hu : u.ops o = ux at hl
  have hne : ∀ {p' o'}, p' ≠ p → k p' = some o' → o' ≠ o := fun hn hk' e => hn (h.inj _ _ _ hk' (e ▸ hk))
  have hren : (∀ x v, (t.complete p ok).pers x v → (u.complete o ok').pers x v) → Ren (upd k p none) (t.complete p ok) (u.complete o ok') := by
    intro hp
    refine ⟨fun p1 p2 o' g1 g2 => ?_, h.vol, hp, fun p' hp' => ?_, fun p' o' hp' => ?_, fun o' ho' => ?_⟩
    · have e1 : p1 ≠ p := fun e => by rw [e, upd_same] at g1; cases g1
      have e2 : p2 ≠ p := fun e => by rw [e, upd_same] at g2; cases g2
      rw [upd_ne _ _ e1] at g1
      rw [upd_ne _ _ e2] at g2
      exact h.inj _ _ _ g1 g2
    · by_cases e : p' = p
      · subst e; exact upd_same _ _ _
      · rw [upd_ne _ _ e] at hp'; simp only [Dev.complete, upd_ne _ _ e]; exact h.free p' hp'
    · have e : p' ≠ p := fun e => by rw [e, upd_same] at hp'; cases hp'
      rw [upd_ne _ _ e] at hp'
      simp only [Dev.complete, upd_ne _ _ e, upd_ne _ _ (hne e hp')]; exact h.live p' o' hp'
    · have e : o' ≠ o := fun e => by rw [e] at ho'; exact ho' (upd_same _ _ _)
      obtain ⟨p', hp'⟩ := h.cover o' (by simpa [Dev.complete, upd_ne _ _ e] using ho')
      refine ⟨p', ?_⟩
      rw [upd_ne _ _ (fun e' => e (by rw [e', hk] at hp'; exact (Option.some.inj hp').symm))]; exact hp'
  cases hl with
  | read off cnt got =>
    refine .inl ⟨⟨_, hu, fun hk' => h2 (hok hk')⟩, fun e => by rw [Dev.result_eq hu, Dev.result_eq h1, e], hren fun x v hx => ⟨h.pers x v hx.1, fun snap hs => ?_⟩⟩
    rw [hu] at hs; cases hs
  | write off cnt dt done =>
    refine .inl ⟨⟨_, hu, fun hk' => h2 (hok hk')⟩, fun e => by rw [Dev.result_eq hu, Dev.result_eq h1, e], hren fun x v hx => ⟨h.pers x v hx.1, fun snap hs => ?_⟩⟩
    rw [hu] at hs; cases hs
  | flush s s' hs =>
    by_cases e : ok' = ok
    · subst e
      refine .inl ⟨⟨_, hu, fun _ => trivial⟩, fun _ => by rw [Dev.result_eq hu, Dev.result_eq h1]; rfl, hren fun x v hx => ⟨h.pers x v hx.1, fun snap hsn hk' => ?_⟩⟩
      rw [hu] at hsn; cases hsn
      exact hs x v (hx.2 s h1 hk')
    · exact .inr ⟨e, s, h1⟩

end Verif.Disk
