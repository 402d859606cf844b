import Verif.Model.Uring
import Verif.Proof.DiskTrace

/-! Invariants of the io_uring channel. -/

namespace Verif.Uring
open Verif.Disk

variable {D : Type} {cap : Nat} {sync whole : Bool} {v : Nat → D}

theorem issue_busy (d : Disk D) (o o' : Nat × Nat) (r : Req D) :
    (d.issue o r).ops o' ≠ none ↔ o' = o ∨ d.ops o' ≠ none := by
  by_cases h : o' = o
  · subst h
    cases r <;> simp [Disk.issue, Dev.issueRead, Dev.issueWrite, Dev.issueFlush]
  · cases r <;> simp [Disk.issue, Dev.issueRead, Dev.issueWrite, Dev.issueFlush, upd_ne _ _ h, h]

theorem issueAll_busy (c : Nat) (l : List (Nat × Req D)) (d : Disk D) (o : Nat × Nat) :
    (issueAll c d l).ops o ≠ none ↔ (o.1 = c ∧ o.2 ∈ l.map Prod.fst) ∨ d.ops o ≠ none := by
  induction l generalizing d with
  | nil => simp [issueAll]
  | cons p l ih =>
    rw [show issueAll c d (p :: l) = issueAll c (d.issue (c, p.1) p.2) l from rfl, ih, issue_busy]
    obtain ⟨a, b⟩ := o
    simp only [Prod.mk.injEq, List.map_cons, List.mem_cons]
    constructor
    · rintro (⟨h1, h2⟩ | ⟨h1, h2⟩ | h)
      · exact .inl ⟨h1, .inr h2⟩
      · exact .inl ⟨h1, .inl h2⟩
      · exact .inr h
    · rintro (⟨h1, h2 | h2⟩ | h)
      · exact .inr (.inl ⟨h1, h2⟩)
      · exact .inl ⟨h1, h2⟩
      · exact .inr (.inr h)

theorem exec_busy (d : Disk D) (o o' : Nat × Nat) (x : Nat) : (d.exec o x).ops o' ≠ none ↔ d.ops o' ≠ none := by
  rw [ne_eq, ne_eq, ← kinds_none, ← kinds_none, kinds_exec]

/-- All ids a channel holds. -/
def Chan.ids (ch : Chan D) : List Nat :=
  ch.sq.map Prod.fst ++ (ch.kern ++ (ch.cq.map Prod.fst ++ ch.finished.map Prod.fst))

theorem Chan.mem_ids (ch : Chan D) (id : Nat) : id ∈ ch.ids ↔ ch.outstanding id := by
  simp only [Chan.ids, Chan.outstanding, List.mem_append]

/-- The kernel works on exactly the requests it was given and has not completed; ids are not mixed up. -/
structure Held (s : Sys D) : Prop where
  nodup : ∀ c, (s.ch c).ids.Nodup
  kern : ∀ c id, id ∈ (s.ch c).kern ↔ s.dev.ops (c, id) ≠ none

theorem Held.fresh : Held (Sys.fresh v) := ⟨fun c => by simp [Sys.fresh, Chan.new, Chan.ids], fun c id => by simp [Sys.fresh, Chan.new, Dev.fresh]⟩

theorem upd_case {α : Type} {P : α → Prop} {f : Nat → α} {c c' : Nat} {a : α} (h1 : c' = c → P a) (h2 : c' ≠ c → P (f c')) :
    P (upd f c a c') := by
  by_cases h : c' = c
  · subst h; rw [upd_same]; exact h1 rfl
  · rw [upd_ne _ _ h]; exact h2 h

theorem add_ids (ch : Chan D) (id : Nat) (r : Req D) : (ch.add cap sync id r).ids.Perm (id :: ch.ids) := by
  unfold Chan.add
  split
  · simp only [Chan.ids, List.map_append, List.map_cons, List.map_nil]
    simp only [← List.append_assoc]
    exact List.perm_append_singleton _ _
  split
  · simp only [Chan.ids, List.map_append, List.map_cons, List.map_nil]
    simp only [← List.append_assoc]
    exact List.perm_append_singleton _ _
  · simp only [Chan.ids, List.map_append, List.map_cons, List.map_nil, List.append_assoc]
    exact List.perm_middle

theorem take_ids (ch : Chan D) (n : Nat) : (ch.take n).ids.Perm ch.ids := by
  simp only [Chan.ids, Chan.take]
  simp only [← List.append_assoc]
  refine List.Perm.append_right _ (List.Perm.append_right _ ?_)
  refine List.perm_append_comm.trans ?_
  rw [← List.append_assoc, ← List.map_append, List.take_append_drop]

theorem post_ids (ch : Chan D) (id : Nat) (res : Int) (data : List (Option D)) (h : id ∈ ch.kern) :
    (ch.post id res data).ids.Perm ch.ids := by
  simp only [Chan.ids, Chan.post, List.map_append, List.map_cons, List.map_nil]
  refine List.Perm.append_left _ ?_
  rw [List.append_assoc]
  refine List.Perm.trans ?_ (List.Perm.append_right _ (List.perm_cons_erase h).symm)
  simp only [List.cons_append, List.nil_append]
  rw [← List.append_assoc]
  refine List.perm_middle.trans ?_
  rw [List.append_assoc]

theorem Held.step {s s' : Sys D} {a : Act D} (i : Held s) (h : Step cap sync whole s a s') : Held s' := by
  cases h with
  | add c id r ho =>
    refine ⟨fun c' => upd_case (P := fun ch => (Chan.ids ch).Nodup) (fun he => ?_) fun _ => i.nodup c', fun c' id' => ?_⟩
    · subst he
      rw [(add_ids _ _ _).nodup_iff, List.nodup_cons, Chan.mem_ids]
      exact ⟨ho, i.nodup _⟩
    · refine upd_case (P := fun ch => id' ∈ Chan.kern ch ↔ _) (fun he => ?_) fun _ => i.kern c' id'
      subst he
      refine Iff.trans ?_ (i.kern c' id')
      unfold Chan.add
      split
      · rfl
      split <;> rfl
  | idle c h => exact i
  | submit c n hp hn =>
    refine ⟨fun c' => upd_case (P := fun ch => (Chan.ids ch).Nodup) (fun he => ?_) fun _ => i.nodup c', fun c' id' => ?_⟩
    · subst he
      rw [(take_ids _ _).nodup_iff]
      exact i.nodup _
    · rw [issueAll_busy]
      refine upd_case (P := fun ch => id' ∈ Chan.kern ch ↔ _) (fun he => ?_) fun he => ?_
      · subst he
        rw [← i.kern]
        simp only [Chan.take, Chan.submitted, List.mem_append, true_and]
        exact or_comm
      · rw [i.kern]; simp [he]
  | submitErr c hp =>
    refine ⟨fun c' => upd_case (P := fun ch => (Chan.ids ch).Nodup) (fun he => ?_) fun _ => i.nodup c', fun c' id' => ?_⟩
    · subst he; exact i.nodup c'
    · refine upd_case (P := fun ch => id' ∈ Chan.kern ch ↔ _) (fun he => ?_) fun _ => i.kern c' id'
      subst he; exact i.kern c' id'
  | exec o x => exact ⟨i.nodup, fun c id => by rw [exec_busy]; exact i.kern c id⟩
  | done c id res op ho hw =>
    have hk : id ∈ (s.ch c).kern := (i.kern c id).mpr (by rw [ho]; simp)
    have hnd := i.nodup c
    refine ⟨fun c' => upd_case (P := fun ch => (Chan.ids ch).Nodup) (fun he => ?_) fun _ => i.nodup c', fun c' id' => ?_⟩
    · subst he
      rw [(post_ids _ _ _ _ hk).nodup_iff]
      exact i.nodup _
    · have hnk : (s.ch c).kern.Nodup := ((List.nodup_append.mp hnd).2.1 |> List.nodup_append.mp).1
      refine upd_case (P := fun ch => id' ∈ Chan.kern ch ↔ _) (fun he => ?_) fun he => ?_
      · subst he
        simp only [Chan.post]
        rw [hnk.mem_erase_iff, i.kern]
        by_cases h : id' = id
        · subst h; simp [ops_complete_same]
        · rw [ops_complete_ne _ _ (by simpa using h)]
          simp [h]
      · rw [i.kern, ops_complete_ne _ _ (by simp [he])]
  | poll c =>
    refine ⟨fun c' => upd_case (P := fun ch => (Chan.ids ch).Nodup) (fun he => ?_) fun _ => i.nodup c', fun c' id' => ?_⟩
    · subst he
      have := i.nodup c'
      simp only [Chan.ids] at this
      rw [← List.append_assoc] at this
      simpa [Chan.ids, Chan.poll] using (List.nodup_append.mp this).1
    · refine upd_case (P := fun ch => id' ∈ Chan.kern ch ↔ _) (fun he => ?_) fun _ => i.kern c' id'
      subst he; exact i.kern c' id'
  | crash w h => exact Held.fresh

theorem Held.run {as : List (Act D)} {s : Sys D} (h : Run cap sync whole v as s) : Held s := by
  induction h with
  | nil => exact Held.fresh
  | snoc _ hs ih => exact ih.step hs

/-! ## Ledger -/

@[simp] theorem added_snoc (c : Nat) (as : List (Act D)) (a : Act D) : added c (as ++ [a]) =
    match a with
    | .add c' id _ => if c' = c then added c as ++ [id] else added c as
    | .crash => []
    | _ => added c as := by
  unfold added
  rw [List.foldl_append]
  cases a <;> rfl

@[simp] theorem reported_snoc (c : Nat) (as : List (Act D)) (a : Act D) : reported c (as ++ [a]) =
    match a with
    | .poll c' out => if c' = c then reported c as ++ out.map (fun p => (p.1, p.2.1)) else reported c as
    | .crash => []
    | _ => reported c as := by
  unfold reported
  rw [List.foldl_append]
  cases a <;> rfl

@[simp] theorem completed_snoc (c : Nat) (as : List (Act D)) (a : Act D) : completed c (as ++ [a]) =
    match a with
    | .done c' id res => if c' = c then completed c as ++ [(id, res)] else completed c as
    | .crash => []
    | _ => completed c as := by
  unfold completed
  rw [List.foldl_append]
  cases a <;> rfl

@[simp] theorem immediate_snoc (c : Nat) (as : List (Act D)) (a : Act D) : immediate cap sync c (as ++ [a]) =
    match a with
    | .add c' id r =>
      if c' = c then
        if sync && isFlush r then ((immediate cap sync c as).1, (immediate cap sync c as).2 ++ [(id, true)])
        else if (immediate cap sync c as).1 ≥ cap then ((immediate cap sync c as).1, (immediate cap sync c as).2 ++ [(id, false)])
        else ((immediate cap sync c as).1 + 1, (immediate cap sync c as).2)
      else immediate cap sync c as
    | .submit c' k => if c' = c then ((immediate cap sync c as).1 - k, (immediate cap sync c as).2) else immediate cap sync c as
    | .crash => (0, [])
    | _ => immediate cap sync c as := by
  unfold immediate
  rw [List.foldl_append]
  cases a <;> rfl

/-- The outcome of a completion entry. -/
def outcome (p : Nat × Int) : Nat × Bool := (p.1, decide (0 ≤ p.2))

structure Ledger (cap : Nat) (sync : Bool) (c : Nat) (as : List (Act D)) (ch : Chan D) : Prop where
  once : (added c as).Perm ((reported c as).map Prod.fst ++ ch.ids)
  count : ch.submissions + ch.pending = ch.completions + ch.cq.length + ch.kern.length + ch.sq.length
  pend : ch.pending ≤ ch.sq.length
  waiting : (immediate cap sync c as).1 = ch.sq.length
  results : (reported c as ++ (ch.finished ++ ch.cq.map fun e => outcome (e.1, e.2.1))).Perm
    ((completed c as).map outcome ++ (immediate cap sync c as).2)

theorem Ledger.new (c : Nat) {as : List (Act D)} (h1 : added c as = []) (h2 : reported c as = []) (h3 : completed c as = [])
    (h4 : immediate cap sync c as = (0, [])) : Ledger cap sync c as (Chan.new : Chan D) :=
  ⟨by simp [h1, h2, Chan.new, Chan.ids], rfl, Nat.le_refl _, by rw [h4]; rfl, by simp [h2, h3, h4, Chan.new]⟩

theorem Ledger.keep {c : Nat} {as as' : List (Act D)} {ch : Chan D} (i : Ledger cap sync c as ch) (h1 : added c as' = added c as)
    (h2 : reported c as' = reported c as) (h3 : completed c as' = completed c as)
    (h4 : immediate cap sync c as' = immediate cap sync c as) : Ledger cap sync c as' ch :=
  ⟨by rw [h1, h2]; exact i.once, i.count, i.pend, by rw [h4]; exact i.waiting, by rw [h2, h3, h4]; exact i.results⟩

theorem Ledger.step {s s' : Sys D} {as : List (Act D)} {a : Act D} (hh : Held s) (i : ∀ c, Ledger cap sync c as (s.ch c))
    (h : Step cap sync whole s a s') (c : Nat) : Ledger cap sync c (as ++ [a]) (s'.ch c) := by
  cases h with
  | add c' id r ho =>
    refine upd_case (P := fun ch => Ledger cap sync c _ ch) (fun he => ?_) fun hne => (i c).keep ?_ ?_ ?_ ?_
    · subst he
      have i := i c
      refine ⟨?_, ?_, ?_, ?_, ?_⟩
      · simp only [added_snoc, reported_snoc, if_true]
        refine (List.perm_append_singleton _ _).trans ?_
        refine List.Perm.trans (List.Perm.cons _ i.once) ?_
        refine List.perm_middle.symm.trans ?_
        exact List.Perm.append_left _ (add_ids _ _ _).symm
      · have := i.count
        unfold Chan.add
        split
        · exact this
        split
        · exact this
        · simp only [List.length_append, List.length_cons, List.length_nil]; omega
      · have := i.pend
        unfold Chan.add
        split
        · exact this
        split
        · exact this
        · simp only [List.length_append, List.length_cons, List.length_nil]; omega
      · have := i.waiting
        simp only [immediate_snoc, if_true]
        unfold Chan.add
        split
        · exact this
        rw [← this]
        split
        · exact this
        · simp only [List.length_append, List.length_cons, List.length_nil]; omega
      · have hw := i.waiting
        have hr := i.results
        simp only [reported_snoc, completed_snoc, immediate_snoc, if_true]
        have push : ∀ b : Bool, (reported c as ++ ((s.ch c).finished ++ [(id, b)] ++ (s.ch c).cq.map fun e => outcome (e.1, e.2.1))).Perm
            ((completed c as).map outcome ++ ((immediate cap sync c as).2 ++ [(id, b)])) := by
          intro b
          rw [← List.append_assoc (List.map outcome _)]
          refine List.Perm.trans ?_ (List.Perm.append_right _ hr)
          simp only [List.append_assoc]
          refine List.Perm.append_left _ (List.Perm.append_left _ ?_)
          exact List.perm_append_comm
        unfold Chan.add
        split
        · exact push true
        rw [← hw]
        split
        · exact push false
        · exact hr
    · simp [Ne.symm hne]
    · simp
    · simp
    · simp [Ne.symm hne]
  | idle c' h0 =>
    refine (i c).keep (by simp) (by simp) (by simp) ?_
    simp only [immediate_snoc, Nat.sub_zero]
    split <;> rfl
  | submit c' n hp hn =>
    refine upd_case (P := fun ch => Ledger cap sync c _ ch) (fun he => ?_) fun hne => (i c).keep (by simp) (by simp) (by simp) (by simp [Ne.symm hne])
    subst he
    have i := i c
    refine ⟨?_, ?_, Nat.zero_le _, ?_, ?_⟩
    · simp only [added_snoc, reported_snoc]
      exact i.once.trans (List.Perm.append_left _ (take_ids _ _).symm)
    · have := i.count
      simp only [Chan.take, Chan.submitted, List.length_append, List.length_drop, List.length_map, List.length_take]
      omega
    · have := i.waiting
      simp only [immediate_snoc, if_true, Chan.take, Chan.submitted, List.length_drop]
      omega
    · simp only [immediate_snoc, reported_snoc, completed_snoc, if_true]
      exact i.results
  | submitErr c' hp =>
    refine upd_case (P := fun ch => Ledger cap sync c _ ch) (fun he => ?_) fun hne => (i c).keep (by simp) (by simp) (by simp) (by simp)
    subst he
    have i := i c
    refine ⟨?_, ?_, Nat.zero_le _, ?_, ?_⟩
    · simp only [added_snoc, reported_snoc]; exact i.once
    · have := i.count; simp only [Chan.submitted]; omega
    · simp only [immediate_snoc]; exact i.waiting
    · simp only [immediate_snoc, reported_snoc, completed_snoc]; exact i.results
  | exec o x => exact (i c).keep (by simp) (by simp) (by simp) (by simp)
  | done c' id res op ho hw =>
    refine upd_case (P := fun ch => Ledger cap sync c _ ch) (fun he => ?_) fun hne => (i c).keep (by simp) (by simp) (by simp [Ne.symm hne]) (by simp)
    subst he
    have hk : id ∈ (s.ch c).kern := (hh.kern c id).mpr (by rw [ho]; simp)
    have i := i c
    refine ⟨?_, ?_, i.pend, ?_, ?_⟩
    · simp only [added_snoc, reported_snoc]
      exact i.once.trans (List.Perm.append_left _ (post_ids _ _ _ _ hk).symm)
    · have := i.count
      have h1 := List.length_erase_of_mem hk
      have h2 := List.length_pos_of_mem hk
      simp only [Chan.post, List.length_append, List.length_cons, List.length_nil]
      omega
    · simp only [immediate_snoc]; exact i.waiting
    · simp only [immediate_snoc, reported_snoc, completed_snoc, if_true, Chan.post, List.map_append, List.map_cons, List.map_nil]
      rw [← List.append_assoc (s.ch c).finished, ← List.append_assoc]
      refine List.Perm.trans (List.Perm.append_right _ i.results) ?_
      rw [List.append_assoc, List.append_assoc]
      exact List.Perm.append_left _ List.perm_append_comm
  | poll c' =>
    refine upd_case (P := fun ch => Ledger cap sync c _ ch) (fun he => ?_) fun hne => (i c).keep (by simp) (by simp [Ne.symm hne]) (by simp) (by simp)
    subst he
    have i := i c
    have hout : (s.ch c).poll.2.map (fun p => (p.1, p.2.1)) = (s.ch c).finished ++ (s.ch c).cq.map fun e => outcome (e.1, e.2.1) := by
      simp [Chan.poll, List.map_append, List.map_map, Function.comp_def, report, outcome]
    refine ⟨?_, ?_, i.pend, ?_, ?_⟩
    · simp only [added_snoc, reported_snoc, if_true, hout]
      refine i.once.trans ?_
      simp only [List.map_append, Chan.ids, Chan.poll, List.map_nil, List.append_nil, List.map_map, List.append_assoc]
      refine List.Perm.append_left _ ?_
      have h1 : ((s.ch c).cq.map ((Prod.fst : Nat × Bool → Nat) ∘ fun e => outcome (e.1, e.2.1))) = (s.ch c).cq.map Prod.fst :=
        List.map_congr_left fun _ _ => rfl
      rw [h1]
      rw [← List.append_assoc, ← List.append_assoc]
      exact List.perm_append_comm.trans (List.Perm.append_left _ List.perm_append_comm)
    · have := i.count
      simp only [Chan.poll, List.length_nil]
      omega
    · simp only [immediate_snoc]; exact i.waiting
    · simp only [immediate_snoc, reported_snoc, completed_snoc, if_true, hout]
      simpa [Chan.poll] using i.results
  | crash w h => exact Ledger.new c (by simp) (by simp) (by simp) (by simp)

theorem Ledger.run {as : List (Act D)} {s : Sys D} (h : Run cap sync whole v as s) (c : Nat) : Ledger cap sync c as (s.ch c) := by
  induction h generalizing c with
  | nil => exact Ledger.new c rfl rfl rfl rfl
  | snoc hr hs ih => exact Ledger.step (Held.run hr) ih hs c

end Verif.Uring
