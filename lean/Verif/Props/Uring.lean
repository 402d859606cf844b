import Verif.Model.SyncIo
import Verif.Proof.UringRefine

/-! # C54, C63: the I/O engines -/

namespace Verif.Uring
open Verif.Disk

variable {D : Type} {cap : Nat} {sync whole : Bool} {v : Nat → D}

/-! ## C54 -/

/-- C54: in every history, the requests added on a channel are those reported, once each, and those outstanding. -/
theorem C54_once {as : List (Act D)} {s : Sys D} (h : Run cap sync whole v as s) (c : Nat) :
    ∃ rest, (added c as).Perm ((reported c as).map Prod.fst ++ rest) ∧ rest.Nodup ∧
      ∀ id, id ∈ rest ↔ (s.ch c).outstanding id :=
  ⟨_, (Ledger.run h c).once, (Held.run h).nodup c, (s.ch c).mem_ids⟩

/-- C54: the busy flag is off exactly when everything added has been reported. -/
theorem C54_busy {as : List (Act D)} {s : Sys D} (h : Run cap sync whole v as s) (c : Nat) :
    (s.ch c).busy = false ↔ (reported c as).length = (added c as).length := by
  have i := Ledger.run h c
  have h1 := i.once.length_eq
  have h2 := i.count
  have h3 := i.pend
  simp only [List.length_append, List.length_map, Chan.ids] at h1
  simp only [Chan.busy, Bool.or_eq_false_iff, decide_eq_false_iff_not, Bool.not_eq_false', List.isEmpty_iff]
  constructor
  · rintro ⟨⟨a, b⟩, e⟩
    rw [b] at h1
    simp only [List.length_nil] at h1
    omega
  · intro hl
    refine ⟨⟨by omega, List.length_eq_zero_iff.mp (by omega)⟩, by omega⟩

/-- C54: once the kernel has taken and completed everything, one poll reports all that was left: every request has been
reported exactly once and the channel is idle. -/
theorem C54_drains {as : List (Act D)} {s s' : Sys D} {c : Nat} {out : List (Nat × Bool × List (Option D))}
    (h : Run cap sync whole v as s) (hs : Step cap sync whole s (.poll c out) s')
    (h1 : (s.ch c).sq = []) (h2 : ∀ id, s.dev.ops (c, id) = none) :
    (added c (as ++ [.poll c out])).Perm ((reported c (as ++ [.poll c out])).map Prod.fst) ∧ (s'.ch c).busy = false := by
  have hk : (s.ch c).kern = [] := by
    rw [List.eq_nil_iff_forall_not_mem]
    intro id hid
    exact ((Held.run h).kern c id).mp hid (h2 id)
  have hr := h.snoc hs
  have i := Ledger.run hr c
  cases hs with
  | poll =>
    have e : (upd s.ch c (s.ch c).poll.1 c).ids = [] := by simp [Chan.ids, Chan.poll, h1, hk]
    have ho := i.once
    simp only [e, List.append_nil] at ho
    refine ⟨ho, (C54_busy hr c).mpr ?_⟩
    have := ho.length_eq
    rw [List.length_map] at this
    exact this.symm

/-- C54: what is reported is what the kernel said. After a poll, the reports so far are, in some order, the kernel's
completions with "not negative" read as success, and the requests the channel settled itself. -/
theorem C54_results {as : List (Act D)} {s s' : Sys D} {c : Nat} {out : List (Nat × Bool × List (Option D))}
    (h : Run cap sync whole v as s) (hs : Step cap sync whole s (.poll c out) s') :
    (reported c (as ++ [.poll c out])).Perm
      ((completed c as).map (fun p => (p.1, decide (0 ≤ p.2))) ++ (immediate cap sync c as).2) := by
  have i := Ledger.run (h.snoc hs) c
  cases hs with
  | poll =>
    have := i.results
    simp only [upd_same, Chan.poll, List.map_nil, List.append_nil, completed_snoc, immediate_snoc] at this
    exact this

theorem Run.steps {as bs : List (Act D)} {s s' : Sys D} (h : Run cap sync whole v as s) (h' : Steps cap sync whole s bs s') :
    Run cap sync whole v (as ++ bs) s' := by
  induction h' with
  | nil => simpa using h
  | snoc _ hs ih => rw [← List.append_assoc]; exact (ih h).snoc hs

/-- C54: a submit that fails strands its requests. Until another request is added on the channel, nothing that happens,
in particular no further submit, gives them to the kernel, and the channel stays busy. -/
theorem C54_failed_submit_strands {as later : List (Act D)} {s s1 s' : Sys D} {c : Nat} (h : Run cap sync whole v as s)
    (he : Step cap sync whole s (.submitErr c) s1) (hl : Steps cap sync whole s1 later s')
    (hn : ∀ a ∈ later, (∀ id r, a ≠ .add c id r) ∧ a ≠ .crash) :
    (s.ch c).sq ≠ [] ∧ (s'.ch c).sq = (s.ch c).sq ∧ (s'.ch c).busy = true ∧ ∀ n, Act.submit c (n + 1) ∉ later := by
  have hp0 : (s.ch c).pending ≠ 0 := by cases he; assumption
  have hne : (s.ch c).sq ≠ [] := by
    have := (Ledger.run h c).pend
    intro hc
    rw [hc, List.length_nil] at this
    omega
  have key : (s'.ch c).sq = (s.ch c).sq ∧ (s'.ch c).pending = 0 ∧ ∀ n, Act.submit c (n + 1) ∉ later := by
    clear h hne hp0
    induction hl with
    | nil => cases he; simp [Chan.submitted]
    | snoc h1 h2 ih =>
      rename_i as1 a1 _ t t'
      obtain ⟨i1, i2, i3⟩ := ih he fun a ha => hn a (by simp [ha])
      have hna := hn a1 (by simp)
      have hmem : (∀ n, a1 ≠ .submit c (n + 1)) → ∀ n, Act.submit c (n + 1) ∉ as1 ++ [a1] := by
        intro hx n
        rw [List.mem_append, List.mem_singleton]
        rintro (hc | hc)
        · exact i3 n hc
        · exact hx n hc.symm
      cases h2 with
      | add c' id r ho =>
        have hcc : c ≠ c' := fun hc => hna.1 id r (by rw [hc])
        exact ⟨by simp only [upd_ne _ _ hcc]; exact i1, by simp only [upd_ne _ _ hcc]; exact i2, hmem (by simp)⟩
      | idle => exact ⟨i1, i2, hmem (by simp)⟩
      | submit c' n hp hn' =>
        have hcc : c ≠ c' := fun hc => hp (by rw [← hc]; exact i2)
        exact ⟨by simp only [upd_ne _ _ hcc]; exact i1, by simp only [upd_ne _ _ hcc]; exact i2, hmem (by simp [Ne.symm hcc])⟩
      | submitErr c' hp =>
        have hcc : c ≠ c' := fun hc => hp (by rw [← hc]; exact i2)
        exact ⟨by simp only [upd_ne _ _ hcc]; exact i1, by simp only [upd_ne _ _ hcc]; exact i2, hmem (by simp)⟩
      | exec => exact ⟨i1, i2, hmem (by simp)⟩
      | done c' id res op ho hw =>
        refine ⟨?_, ?_, hmem (by simp)⟩
        · refine upd_case (P := fun ch => Chan.sq ch = _) (fun hc => ?_) fun _ => i1
          subst hc; exact i1
        · refine upd_case (P := fun ch => Chan.pending ch = _) (fun hc => ?_) fun _ => i2
          subst hc; exact i2
      | poll c' =>
        refine ⟨?_, ?_, hmem (by simp)⟩
        · refine upd_case (P := fun ch => Chan.sq ch = _) (fun hc => ?_) fun _ => i1
          subst hc; exact i1
        · refine upd_case (P := fun ch => Chan.pending ch = _) (fun hc => ?_) fun _ => i2
          subst hc; exact i2
      | crash => exact absurd rfl hna.2
  refine ⟨hne, key.1, ?_, key.2.2⟩
  have hr := (h.snoc he).steps hl
  cases hb : (s'.ch c).busy with
  | true => rfl
  | false =>
    have h1 := (C54_busy hr c).mp hb
    have h2 := (Ledger.run hr c).once.length_eq
    rw [List.length_append, List.length_map, h1] at h2
    have : ((s'.ch c).ids).length = 0 := by omega
    rw [List.length_eq_zero_iff] at this
    have h3 : (s'.ch c).sq = [] := by
      simp only [Chan.ids, List.append_eq_nil_iff, List.map_eq_nil_iff] at this
      exact this.1
    exact absurd (key.1.symm.trans h3) hne

/-- A failed submit after one request, and one more submit, meet the hypotheses. -/
example : ∃ s s1 s' : Sys Nat, Run 4 false false (fun _ => 0) [.add 0 7 (.read 0 1)] s ∧
    Step 4 false false s (.submitErr 0) s1 ∧ Steps 4 false false s1 [.submit 0 0] s' ∧
    ∀ a ∈ [Act.submit (D := Nat) 0 0], (∀ id r, a ≠ .add 0 id r) ∧ a ≠ .crash := by
  have h1 := (Run.nil (cap := 4) (sync := false) (whole := false) (v := fun _ : Nat => (0 : Nat))).snoc (.add _ 0 7 (.read 0 1)
    (by simp [Sys.fresh, Chan.new, Chan.outstanding]))
  refine ⟨_, _, _, h1, .submitErr _ 0 (by simp [Chan.add, Sys.fresh, Chan.new, isFlush]), Steps.snoc (as := []) (.nil _) (.idle _ 0 ?_), ?_⟩
  · simp [Chan.submitted]
  · simp

/-- C54: byte offset and length handed to the kernel are the sectors asked for iff they fit; a request for 2^23 sectors
becomes an empty one. -/
theorem C54_fields (off cnt : Nat) :
    (sqeFields off cnt = (off * 512, cnt * 512) ↔ off < 2 ^ 55 ∧ cnt < 2 ^ 23) ∧ (sqeFields off (2 ^ 23)).2 = 0 := by
  refine ⟨?_, rfl⟩
  simp only [sqeFields, Prod.mk.injEq]
  omega

/-- C54: a transfer the kernel cut short is reported as a success, with the rest of the buffer as it was. -/
theorem C54_short_transfer_is_success :
    ∃ (as : List (Act Nat)) (s : Sys Nat), Run 4 false false (fun _ => 0) (as ++ [.poll 0 [(7, true, [none])]]) s ∧
      completed 0 as = [(7, 1)] ∧ added 0 as = [7] := by
  have h1 := (Run.nil (cap := 4) (sync := false) (whole := false) (v := fun _ : Nat => (0 : Nat))).snoc (.add _ 0 7 (.read 0 1)
    (by simp [Sys.fresh, Chan.new, Chan.outstanding]))
  have h2 := h1.snoc (.submit _ 0 1 (by simp [Chan.add, Sys.fresh, Chan.new, isFlush]) (by simp [Chan.add, Sys.fresh, Chan.new, isFlush]))
  have h3 := h2.snoc (.done _ 0 7 1 (.read 0 1 fun _ => none) rfl (by simp))
  have h4 := h3.snoc (.poll _ 0)
  exact ⟨_, _, h4, rfl, rfl⟩

/-! ## C63 -/

/-- C63: whatever the users of an io_uring device see, on any number of channels, with any submissions, completion
orders, failures and power losses, they could have seen of one plain disk with a volatile cache, provided the kernel is
such a disk and reports success only for requests carried out in full. Devices opened for write-through are left out. -/
theorem C63_uring {as : List (Act D)} {s : Sys D} (h : Run cap false true v as s) :
    ∃ d, Disk.Run (Dev.fresh v) (as.flatMap Act.view) d := by
  obtain ⟨d, h, -⟩ := R.run h
  exact ⟨d, h⟩

/-- A write on one channel, then a read on another that sees it, are a history of the device. -/
example : ∃ s, Run 4 false true (fun _ : Nat => (0 : Nat))
    [.add 0 7 (.write 5 1 fun _ => 42), .submit 0 1, .exec (0, 7) 5, .done 0 7 512, .poll 0 [(7, true, [])],
     .add 1 7 (.read 5 1), .submit 1 1, .exec (1, 7) 5, .done 1 7 512, .poll 1 [(7, true, [some 42])]] s := by
  have h1 := (Run.nil (cap := 4) (sync := false) (whole := true) (v := fun _ : Nat => (0 : Nat))).snoc
    (.add _ 0 7 (.write 5 1 fun _ => 42) (by simp [Sys.fresh, Chan.new, Chan.outstanding]))
  have h2 := h1.snoc (.submit _ 0 1 (by simp [Chan.add, Sys.fresh, Chan.new, isFlush]) (by simp [Chan.add, Sys.fresh, Chan.new, isFlush]))
  have h3 := h2.snoc (.exec _ (0, 7) 5)
  have h4 := h3.snoc (.done _ 0 7 512 (.write 5 1 (fun _ => 42) (upd (fun _ => false) 5 true)) rfl (by
    intro _ _ x hx
    have : x = 5 := by obtain ⟨_, _⟩ := hx; omega
    subst this; rfl))
  have h5 := h4.snoc (.poll _ 0)
  have h6 := h5.snoc (.add _ 1 7 (.read 5 1) (by simp [upd, Sys.fresh, Chan.new, Chan.outstanding]))
  have h7 := h6.snoc (.submit _ 1 1 (by simp [upd, Chan.add, Sys.fresh, Chan.new, isFlush]) (by simp [upd, Chan.add, Sys.fresh, Chan.new, isFlush]))
  have h8 := h7.snoc (.exec _ (1, 7) 5)
  have h9 := h8.snoc (.done _ 1 7 512 (.read 5 1 (upd (fun _ => none) 5 (some 42))) rfl (by
    intro _ _ x hx
    have : x = 5 := by obtain ⟨_, _⟩ := hx; omega
    subst this; simp))
  have h10 := h9.snoc (.poll _ 1)
  exact ⟨_, h10⟩

end Verif.Uring

namespace Verif.SyncIo
open Verif.Disk

variable {D : Type} {v : Nat → D}

/-- The io_uring channel that stands for a synchronous one. -/
structure Like (s : Sys D) (u : Uring.Sys D) : Prop where
  dev : u.dev = s.dev
  sq : ∀ c, (u.ch c).sq = []
  kern : ∀ c, (u.ch c).kern = (s.ch c).cur.toList
  cq : ∀ c, (u.ch c).cq.map Uring.report = (s.ch c).finished
  fin : ∀ c, (u.ch c).finished = []
  pend : ∀ c, (u.ch c).pending = 0

theorem Like.step {s s' : Sys D} {u : Uring.Sys D} {a : Act D} {us : List (Uring.Act D)} (l : Like s u)
    (h : Step s a s') (hr : Uring.Run 1 false true v us u) :
    ∃ bs u', Uring.Run 1 false true v (us ++ bs) u' ∧ bs.flatMap Uring.Act.view = a.view ∧ Like s' u' := by
  cases h with
  | add c id r hc hf =>
    have ho : ¬(u.ch c).outstanding id := by
      have h1 : (u.ch c).cq.map Prod.fst = (s.ch c).finished.map Prod.fst := by
        rw [← l.cq, List.map_map]; rfl
      simp only [Uring.Chan.outstanding, l.sq, l.kern, hc, h1, l.fin]
      simpa using hf
    have hadd : (u.ch c).add 1 false id r = { u.ch c with sq := [(id, r)], pending := 1 } := by
      simp [Uring.Chan.add, l.sq, l.pend]
    have h1 := hr.snoc (.add u c id r ho)
    have h2 := h1.snoc (.submit _ c 1 (by simp [hadd]) (by simp [hadd]))
    refine ⟨_, _, by simpa using h2, rfl, ?_⟩
    simp only [upd_same, Uring.upd_upd, hadd]
    have e : (Uring.Chan.submitted { u.ch c with sq := [(id, r)], pending := 1 }).take 1 =
        { u.ch c with sq := [], kern := (u.ch c).kern ++ [id], submissions := (u.ch c).submissions + 1, pending := 0 } := rfl
    rw [e]
    refine ⟨by simp [Uring.issueAll, l.dev], ?_, ?_, ?_, ?_, ?_⟩ <;> intro c' <;> by_cases hcc : c' = c
    all_goals first
      | (subst hcc; simp [l.kern, l.cq, l.fin, hc])
      | (simp [upd_ne _ _ hcc, l.sq, l.kern, l.cq, l.fin, l.pend])
  | exec o x =>
    refine ⟨_, _, hr.snoc (.exec u o x), rfl, ?_⟩
    exact ⟨by simp [l.dev], l.sq, l.kern, l.cq, l.fin, l.pend⟩
  | done c id ok hc hm =>
    obtain ⟨op, h1, h2⟩ := hm
    have hres : decide ((0 : Int) ≤ if ok then 0 else -1) = ok := by cases ok <;> rfl
    have h3 := hr.snoc (.done u c id (if ok then 0 else -1) op (by rw [l.dev]; exact h1) (fun _ h => h2 (by
      cases ok
      · simp at h
      · rfl)))
    refine ⟨_, _, h3, rfl, ?_⟩
    refine ⟨by simp only [hres, l.dev], ?_, ?_, ?_, ?_, ?_⟩ <;> intro c' <;> by_cases hcc : c' = c
    all_goals first
      | (subst hcc; simp [Uring.Chan.post, l.sq, l.kern, l.cq, l.fin, l.pend, l.dev, hc, Uring.report, hres])
      | (simp [upd_ne _ _ hcc, l.sq, l.kern, l.cq, l.fin, l.pend])
  | poll c hc =>
    have hout : (u.ch c).poll.2 = (s.ch c).finished := by simp [Uring.Chan.poll, l.fin, l.cq]
    have h1 := hr.snoc (.poll u c)
    refine ⟨_, _, h1, by rw [hout]; simp [Uring.Act.view, Act.view], ?_⟩
    refine ⟨l.dev, ?_, ?_, ?_, ?_, ?_⟩ <;> intro c' <;> by_cases hcc : c' = c
    all_goals first
      | (subst hcc; simp [Uring.Chan.poll, l.sq, l.kern, l.cq, l.fin, l.pend])
      | (simp [upd_ne _ _ hcc, l.sq, l.kern, l.cq, l.fin, l.pend])
  | crash w hw =>
    refine ⟨_, _, hr.snoc (.crash u w (by rw [l.dev]; exact hw)), rfl, ?_⟩
    exact ⟨rfl, fun _ => rfl, fun _ => rfl, fun _ => rfl, fun _ => rfl, fun _ => rfl⟩

/-- C63, for the synchronous engine: the same, its calls finishing one at a time on each channel. -/
theorem C63_sync {as : List (Act D)} {s : Sys D} (h : Run v as s) : ∃ d, Disk.Run (Dev.fresh v) (as.flatMap Act.view) d := by
  have : ∃ us u, Uring.Run 1 false true v us u ∧ us.flatMap Uring.Act.view = as.flatMap Act.view ∧ Like s u := by
    induction h with
    | nil => exact ⟨[], _, .nil, rfl, rfl, fun _ => rfl, fun _ => rfl, fun _ => rfl, fun _ => rfl, fun _ => rfl⟩
    | snoc _ hs ih =>
      obtain ⟨us, u, h1, h2, h3⟩ := ih
      obtain ⟨bs, u', h4, h5, h6⟩ := h3.step hs h1
      exact ⟨us ++ bs, u', h4, by simp [h2, h5], h6⟩
  obtain ⟨us, u, h1, h2, -⟩ := this
  rw [← h2]
  exact Uring.C63_uring h1

/-- A synchronous write, flush and power loss are a history. -/
example : ∃ s, Run (fun _ : Nat => (0 : Nat))
    [.add 0 7 (.write 5 1 fun _ => 42), .exec (0, 7) 5, .done 0 7 true, .poll 0 [(7, true, [])], .crash] s := by
  have h1 := (Run.nil (v := fun _ : Nat => (0 : Nat))).snoc (.add _ 0 7 (.write 5 1 fun _ => 42) rfl (by simp [Sys.fresh]))
  have h2 := h1.snoc (.exec _ (0, 7) 5)
  have h3 := h2.snoc (.done _ 0 7 true rfl ⟨.write 5 1 (fun _ => 42) (upd (fun _ => false) 5 true), rfl, by
    intro _ x hx
    have : x = 5 := by obtain ⟨_, _⟩ := hx; omega
    subst this; rfl⟩)
  have h4 := h3.snoc (.poll _ 0 rfl)
  have h5 := h4.snoc (.crash _ (fun _ => 0) (fun x => ⟨.inl rfl, by simp [Dev.exec, Disk.issue, Dev.issueWrite, covers]⟩))
  exact ⟨_, h5⟩

end Verif.SyncIo
