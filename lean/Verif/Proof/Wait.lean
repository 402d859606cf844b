import Verif.Model.Wait
import Verif.Spec.Wait
import Verif.Proof.Dev
import Verif.Proof.DiskTrace

/-! # Waiting for one request at a time: the invariant -/

namespace Verif.Wait
open Verif Verif.Disk
variable {D : Type}

theorem scan_nil (id : Nat) : scan id [] = none := rfl
theorem scan_one (id : Nat) (ok : Bool) : scan id [(id, ok)] = some ok := by simp [scan]

/-- What the disk may look like while request `r` on contents `v` is in flight. -/
def InFlight (v : Nat → D) (r : Req D) (op : Option (Op D)) (vol : Nat → D) : Prop :=
  match r with
  | .read off cnt => ∃ got, op = some (.read off cnt got) ∧ (∀ x, got x = none ∨ got x = some (v x)) ∧ vol = v
  | .write off cnt data => ∃ dn, op = some (.write off cnt data dn) ∧ ∀ x, vol x = if covers off cnt x ∧ dn x = true then data x else v x
  | .flush => ∃ snap, op = some (.flush snap) ∧ (∀ x w, snap x w → w = v x) ∧ vol = v

theorem inFlight_issue {d : Disk D} (hn : ∀ o, d.ops o = none) (o : Nat × Nat) (r : Req D) :
    InFlight d.vol r ((d.issue o r).ops o) (d.issue o r).vol ∧ ∀ o', o' ≠ o → (d.issue o r).ops o' = none := by
  cases r with
  | read off cnt =>
    refine ⟨⟨fun _ => none, by simp [Disk.issue, Dev.issueRead], fun _ => .inl rfl, rfl⟩, fun o' h => ?_⟩
    simp [Disk.issue, Dev.issueRead, upd_ne _ _ h, hn]
  | write off cnt data =>
    refine ⟨⟨fun _ => false, by simp [Disk.issue, Dev.issueWrite], fun x => by simp [Disk.issue, Dev.issueWrite]⟩, fun o' h => ?_⟩
    simp [Disk.issue, Dev.issueWrite, upd_ne _ _ h, hn]
  | flush =>
    refine ⟨⟨_, by simp [Disk.issue, Dev.issueFlush]; rfl, ?_, rfl⟩, fun o' h => ?_⟩
    · rintro x w (h | ⟨o', _, _, _, _, h, _⟩)
      · exact h
      · rw [hn] at h; cases h
    · simp [Disk.issue, Dev.issueFlush, upd_ne _ _ h, hn]

theorem inFlight_exec {v : Nat → D} {d : Disk D} {o : Nat × Nat} {r : Req D} (h : InFlight v r (d.ops o) d.vol) (x : Nat) :
    InFlight v r ((d.exec o x).ops o) (d.exec o x).vol := by
  cases r with
  | read off cnt =>
    obtain ⟨got, h1, h2, h3⟩ := h
    by_cases hc : covers off cnt x
    · refine ⟨upd got x (some (d.vol x)), by simp [Dev.exec, h1, hc], ?_, by simp [Dev.exec, h1, hc, h3]⟩
      intro y
      by_cases hy : y = x
      · subst hy; right; simp [h3]
      · rw [upd_ne _ _ hy]; exact h2 y
    · exact ⟨got, by simp [Dev.exec, h1, hc], h2, by simp [Dev.exec, h1, hc, h3]⟩
  | write off cnt data =>
    obtain ⟨dn, h1, h2⟩ := h
    by_cases hc : covers off cnt x
    · refine ⟨upd dn x true, by simp [Dev.exec, h1, hc], ?_⟩
      intro y
      simp only [Dev.exec, h1, hc, if_true]
      by_cases hy : y = x
      · subst hy; simp [hc]
      · rw [upd_ne _ _ hy, upd_ne _ _ hy]; exact h2 y
    · exact ⟨dn, by simp [Dev.exec, h1, hc], by simpa [Dev.exec, h1, hc] using h2⟩
  | flush =>
    obtain ⟨snap, h1, h2, h3⟩ := h
    exact ⟨snap, by simp [Dev.exec, h1], h2, by simp [Dev.exec, h1, h3]⟩

theorem exec_none {d : Disk D} {o : Nat × Nat} (h : d.ops o = none) (x : Nat) : d.exec o x = d := by simp [Dev.exec, h]

theorem inFlight_done {v : Nat → D} {d : Disk D} {o : Nat × Nat} {r : Req D} (h : InFlight v r (d.ops o) d.vol) (hm : d.mayComplete o true) :
    (Dev.complete d o true).vol = (now v r).1 ∧ d.result o true = (now v r).2 ∧
    (r = .flush → ∀ x w, (Dev.complete d o true).pers x w → w = v x) := by
  obtain ⟨op, hop, hf⟩ := hm
  have hf := hf rfl
  cases r with
  | read off cnt =>
    obtain ⟨got, h1, h2, h3⟩ := h
    rw [h1] at hop; cases hop
    refine ⟨h3, ?_, by intro h; cases h⟩
    simp only [Dev.result, h1, if_true, now]
    apply List.map_congr_left
    intro i hi
    have := hf (off + i) ⟨by omega, by have := List.mem_range.mp hi; omega⟩
    rcases h2 (off + i) with h | h
    · exact absurd h this
    · exact h
  | write off cnt data =>
    obtain ⟨dn, h1, h2⟩ := h
    rw [h1] at hop; cases hop
    refine ⟨?_, by simp [Dev.result, h1, now], by intro h; cases h⟩
    funext x
    simp only [Dev.complete, now, h2]
    by_cases hc : covers off cnt x
    · rw [if_pos ⟨hc, hf x hc⟩]; exact (if_pos hc).symm
    · rw [if_neg (fun h => hc h.1)]; exact (if_neg hc).symm
  | flush =>
    obtain ⟨snap, h1, h2, h3⟩ := h
    refine ⟨h3, by simp [Dev.result, h1, now], ?_⟩
    intro _ x w hp
    exact h2 x w (hp.2 snap h1 rfl)

theorem inFlight_some {v : Nat → D} {r : Req D} {op : Option (Op D)} {vol : Nat → D} (h : InFlight v r op vol) : op ≠ none := by
  cases r <;> obtain ⟨_, h, _⟩ := h <;> simp [h]

/-- With one request in flight a poll returns nothing or that request. -/
theorem polled_one {d d' : Disk D} {cs : List (Done D)} {k : Nat} (hn : ∀ o, o ≠ (0, k) → d.ops o = none) (h : Polled d cs d') :
    (cs = [] ∧ d' = d) ∨ ∃ ok, d.mayComplete (0, k) ok ∧ cs = [⟨k, ok, d.result (0, k) ok⟩] ∧ d' = Dev.complete d (0, k) ok := by
  cases h with
  | nil => exact .inl ⟨rfl, rfl⟩
  | @cons _ _ s ok cs hm hr =>
    have hs : s = k := by
      refine Decidable.byContradiction fun hne => ?_
      obtain ⟨op, hop, _⟩ := hm
      rw [hn (0, s) (by simpa using hne)] at hop; cases hop
    subst hs
    refine .inr ⟨ok, hm, ?_⟩
    have hnone : ∀ o, (Dev.complete d (0, s) ok).ops o = none := by
      intro o
      by_cases ho : o = (0, s)
      · subst ho; simp [Dev.complete]
      · simp [Dev.complete, upd_ne _ _ ho, hn o ho]
    cases hr with
    | nil => exact ⟨rfl, rfl⟩
    | cons hm' _ => obtain ⟨op, hop, _⟩ := hm'; rw [hnone] at hop; cases hop

theorem inTurn_append (v : Nat → D) (a b : List (Req D)) :
    inTurn v (a ++ b) = ((inTurn (inTurn v a).1 b).1, (inTurn v a).2 ++ (inTurn (inTurn v a).1 b).2) := by
  induction a generalizing v with
  | nil => simp [inTurn]
  | cons r a ih => simp [inTurn, ih]

theorem inTurn_length (v : Nat → D) (rs : List (Req D)) : (inTurn v rs).2.length = rs.length := by
  induction rs generalizing v with
  | nil => rfl
  | cons r rs ih => simp [inTurn, ih]

theorem answered_snoc (k : Nat) (rs : List (Req D)) (gs : List (List (Option D))) (hl : gs.length = rs.length) (r : Req D)
    (g : List (Option D)) : answered k (rs ++ [r]) (gs ++ [g]) = answered k rs gs ++ [.issue 0 (k + rs.length) r, .resp 0 (k + rs.length) true g] := by
  induction rs generalizing k gs with
  | nil => cases gs with
    | nil => rfl
    | cons => simp at hl
  | cons a rs ih =>
    cases gs with
    | nil => simp at hl
    | cons b gs =>
      simp only [List.cons_append, answered, List.length_cons]
      rw [ih (k + 1) gs (by simpa using hl), show k + 1 + rs.length = k + (rs.length + 1) by omega]

/-- The invariant. -/
def Inv (d0 : Disk D) (rs : List (Nat × Req D)) (s : St D) : Prop :=
  s.cli.failed = false → ∃ pre : List (Nat × Req D),
    s.cli.got = (inTurn d0.vol (pre.map Prod.snd)).2 ∧
    ((s.cli.waiting = none ∧ rs = pre ++ s.cli.todo ∧ s.cli.made = pre.length ∧ (∀ o, s.disk.ops o = none) ∧
        s.disk.vol = (inTurn d0.vol (pre.map Prod.snd)).1 ∧
        (∀ p i, pre = p ++ [(i, .flush)] → ∀ x w, s.disk.pers x w → w = s.disk.vol x) ∧
        Disk.Run d0 (answered 0 (pre.map Prod.snd) s.cli.got) s.disk) ∨
     ∃ id r, s.cli.waiting = some id ∧ rs = pre ++ (id, r) :: s.cli.todo ∧ s.cli.made = pre.length + 1 ∧ s.cli.ids pre.length = id ∧
        (∀ o, o ≠ (0, pre.length) → s.disk.ops o = none) ∧
        InFlight (inTurn d0.vol (pre.map Prod.snd)).1 r (s.disk.ops (0, pre.length)) s.disk.vol ∧
        Disk.Run d0 (answered 0 (pre.map Prod.snd) s.cli.got ++ [.issue 0 pre.length r]) s.disk)

theorem Inv.start (d0 : Disk D) (h0 : ∀ o, d0.ops o = none) (rs : List (Nat × Req D)) : Inv d0 rs (start d0 rs) := by
  intro _
  refine ⟨[], rfl, .inl ⟨rfl, rfl, rfl, h0, rfl, ?_, .nil _⟩⟩
  intro p i h; simp at h

theorem Inv.step {d0 : Disk D} {rs : List (Nat × Req D)} {s s' : St D} (hi : Inv d0 rs s) (h : Step s s') : Inv d0 rs s' := by
  cases h with
  | @submit id r rest hf hw ht =>
    intro _
    obtain ⟨pre, hg, h⟩ := hi hf
    rcases h with ⟨_, e, hm, hn, hv, _, hr⟩ | ⟨_, _, hw', _⟩
    · refine ⟨pre, hg, .inr ⟨id, r, rfl, by rw [e, ht], by simp [hm], by simp [hm], ?_⟩⟩
      obtain ⟨h1, h2⟩ := inFlight_issue hn (0, pre.length) r
      rw [hm]
      refine ⟨h2, by rw [← hv]; exact h1, ?_⟩
      exact hr.snoc (.issue _ 0 pre.length r (hn _))
    · rw [hw] at hw'; cases hw'
  | refused _ _ _ _ => intro h; cases h
  | exec o x =>
    intro hf
    obtain ⟨pre, hg, h⟩ := hi hf
    refine ⟨pre, hg, ?_⟩
    rcases h with ⟨hw, e, hm, hn, hv, hp, hr⟩ | ⟨id, r, hw, e, hm, hid, hn, hfl, hr⟩
    · rw [exec_none (hn _)]; exact .inl ⟨hw, e, hm, hn, hv, hp, hr⟩
    · by_cases hk : o = (0, pre.length)
      · subst hk
        refine .inr ⟨id, r, hw, e, hm, hid, ?_, inFlight_exec hfl x, ?_⟩
        · intro o ho; rw [ops_exec_ne _ _ ho]; exact hn o ho
        · simpa using hr.snoc (.exec _ (0, pre.length) x)
      · rw [exec_none (hn o hk)]
        exact .inr ⟨id, r, hw, e, hm, hid, hn, hfl, hr⟩
  | @poll cs d' hf hw hp =>
    obtain ⟨pre, hg, h⟩ := hi hf
    rcases h with ⟨hw', _⟩ | ⟨id, r, hw', e, hm, hid, hn, hfl, hr⟩
    · exact absurd hw' hw
    · rcases polled_one hn hp with ⟨rfl, rfl⟩ | ⟨ok, hmc, rfl, rfl⟩
      · intro _
        have : settle s.disk [] s.cli = s.cli := by simp [settle, hw', scan]
        simp only [this]
        exact ⟨pre, hg, .inr ⟨id, r, hw', e, hm, hid, hn, hfl, hr⟩⟩
      · cases ok with
        | false => intro h; simp [settle, hw', scan_one, hid] at h
        | true =>
          intro _
          obtain ⟨h1, h2, h3⟩ := inFlight_done hfl hmc
          have hst : settle (Dev.complete s.disk (0, pre.length) true) [⟨pre.length, true, s.disk.result (0, pre.length) true⟩] s.cli =
              { s.cli with waiting := none, got := s.cli.got ++ [s.disk.result (0, pre.length) true] } := by
            simp [settle, hw', scan_one, hid, hm, buffer]
          rw [hst]
          have hnone : ∀ o, (Dev.complete s.disk (0, pre.length) true).ops o = none := by
            intro o
            by_cases ho : o = (0, pre.length)
            · subst ho; simp [Dev.complete]
            · simp [Dev.complete, upd_ne _ _ ho, hn o ho]
          refine ⟨pre ++ [(id, r)], ?_, .inl ⟨rfl, by simp [e], by simp [hm], hnone, ?_, ?_, ?_⟩⟩
          · simp [inTurn_append, inTurn, hg, h2]
          · simp [inTurn_append, inTurn, h1]
          · intro p i hpi x w hpers
            have := (List.append_inj' hpi rfl).2
            simp only [List.cons.injEq, Prod.mk.injEq, and_true] at this
            rw [h3 this.2 x w hpers]
            simp [this.2, now] at h1
            rw [h1]
          · have hl : s.cli.got.length = (pre.map Prod.snd).length := by rw [hg, inTurn_length]
            simp only [List.map_append, List.map_cons, List.map_nil]
            rw [answered_snoc 0 _ _ hl]
            have := hr.snoc (.respond _ 0 pre.length true hmc)
            simpa using this
  | giveUp _ _ => intro h; cases h

theorem Run.inv {d0 : Disk D} {rs : List (Nat × Req D)} (h0 : ∀ o, d0.ops o = none) {s : St D} (h : Run (start d0 rs) s) : Inv d0 rs s := by
  generalize hs : start d0 rs = s0 at h
  induction h with
  | nil => subst hs; exact Inv.start d0 h0 rs
  | snoc _ hstep ih => exact Inv.step ih hstep

end Verif.Wait
