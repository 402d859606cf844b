import Verif.Props.LazyWork
import Verif.Proof.DiskTrace

/-! With written tracking, an acknowledged write is marked. -/

set_option maxRecDepth 8000

namespace Verif.Lazy
open Verif Verif.Metadata Verif.Disk

variable {D : Type} {c : Cfg D}

/-- The guest's writes that are with the data device are to stripes marked as written. -/
def Marked (c : Cfg D) (s : Sys D) : Prop :=
  ∀ q id off cnt, s.t.kinds (.guest q id) = some (.write off cnt) → ∀ x, covers off cnt x → s.sh.ws (x / c.ss) = true

/-- A guest step gives the data device a write only by handing it over. -/
def KindsFrom (s s' : Sys D) (ls : List (Lab D)) : Prop :=
  ∀ q id off cnt, s'.t.kinds (.guest q id) = some (.write off cnt) → s.t.kinds (.guest q id) = some (.write off cnt) ∨
    ∃ q r, Lab.toBase q r ∈ ls ∧ r.out.isSome = true ∧ r.off = off ∧ r.cnt = cnt

theorem guest_kinds {s s' : Sys D} {a : Act D} {ls : List (Lab D)} (h : Step c s a ls s') (hg : a.isGuest = true) :
    KindsFrom s s' ls := by
  have tb : ∀ (s1 : Sys D) q r, s1.t = s.t → Lab.toBase q r ∈ ls → KindsFrom s (toBase s1 q r) ls := by
    intro s1 q r ht hm q' id off cnt hk
    unfold toBase at hk
    split at hk
    · simp only [kinds_issueRead, ht] at hk
      split at hk
      · cases hk
      · exact .inl hk
    · rename_i data hd
      simp only [kinds_issueWrite, ht] at hk
      split at hk
      · cases hk; exact .inr ⟨q, r, hm, by rw [hd]; rfl, rfl, rfl⟩
      · exact .inl hk
  have same : ∀ s1 : Sys D, s1.t = s.t → KindsFrom s s1 ls := by
    intro s1 ht q' id off cnt hk
    rw [ht] at hk; exact Or.inl hk
  cases h with
  | read q id off cnt b hv _ hid =>
    unfold addRead at tb same ⊢
    simp only at tb same ⊢
    split
    · rename_i hst; rw [hst] at tb; exact tb _ _ _ rfl (by simp)
    · rename_i hst; rw [hst] at same; exact same _ rfl
    · rename_i hst; rw [hst] at same
      simp only at same
      split
      · rename_i hc; rw [if_pos hc] at same; exact same _ rfl
      · rename_i hc; rw [if_neg hc] at same; exact same _ enqueueReq_t
  | write q id off cnt data b hv hid =>
    unfold addWrite at tb same ⊢
    simp only at tb same ⊢
    split
    · rename_i hst; rw [hst] at same; exact same _ rfl
    · rename_i hst; rw [hst] at tb same
      simp only at tb same
      split
      · rename_i hc; rw [if_pos hc] at tb; exact tb _ _ _ rfl (by simp)
      · rename_i hc; rw [if_neg hc] at same; exact same _ enqueueReq_t
    · rename_i hst; rw [hst] at same; exact same _ enqueueReq_t
  | flush q id hid =>
    intro q' id' off cnt hk
    simp only [kinds_issueFlush] at hk
    split at hk
    · cases hk
    · exact .inl hk
  | processQueue q b _ _ h =>
    unfold processQueue at h
    split at h
    · simp at h
    · split at h
      · simp at h
      · simp only [Option.some.injEq, Prod.mk.injEq] at h
        obtain ⟨rfl, -⟩ := h
        exact same _ rfl
      · split at h
        · simp at h
        · simp only at h
          split at h
          · simp only [Option.some.injEq, Prod.mk.injEq] at h
            obtain ⟨rfl, rfl⟩ := h
            exact tb _ _ _ rfl (by simp)
          · simp only [Option.some.injEq, Prod.mk.injEq] at h
            obtain ⟨rfl, -⟩ := h
            exact same _ rfl
  | reportFinished q id ok rest h => exact same _ rfl
  | baseDone q id ok h =>
    intro q' id' off cnt hk
    simp only [kinds_complete] at hk
    split at hk
    · cases hk
    · exact .inl hk
  | imageDone q id ok off cnt h => exact same _ rfl
  | _ => simp [Act.isGuest] at hg

theorem step_marked (ht : c.track = true) {s s' : Sys D} {a : Act D} {ls : List (Lab D)} (hs : Sound c s) (hi : Marked c s)
    (h : Step c s a ls s') : Marked c s' := by
  have hmono := step_mono hs h
  have hlab := step_labOk hs h
  have fr : (∀ q id, s'.t.kinds (.guest q id) = s.t.kinds (.guest q id)) → Marked c s' := by
    intro hk q id off cnt h1 x hx
    rw [hk] at h1
    exact hmono.ws _ (hi q id off cnt h1 x hx)
  by_cases hg : a.isGuest = true
  · intro q id off cnt h1 x hx
    rcases guest_kinds h hg q id off cnt h1 with h2 | ⟨q', r, h2, h3, rfl, rfl⟩
    · exact hmono.ws _ (hi q id off cnt h2 x hx)
    · exact hmono.ws _ ((hlab _ h2).2.2 ht h3 _ (covers_stripes hx))
  have hf := hs.1.fetch
  cases h with
  | execData o' x => exact fr fun q id => by simp only [kinds_exec]
  | receiveFetch k ms hms => exact fr fun q id => by rw [handleFetch_t]
  | autofetch k ks ha hq hk => exact fr fun q id => by rw [handleFetch_t]
  | startFetch b _ _ hst => exact fr fun q id => by rw [(startFetch_frame hf hst).2.1]
  | sourceDone k ok b g _ _ hst =>
    rcases (sourceDone_frame hf hst).2.2.2 with htt | ⟨bu, htt⟩
    · exact fr fun q id => by rw [htt]
    · exact fr fun q id => by rw [htt, kinds_issueWrite]; simp
  | targetDone k ok b hmc =>
    rcases (targetDone_frame (b := b) hf hmc).2 with ⟨data, done, -, -, -, -, htt, -⟩ | ⟨htt, -⟩ | ⟨snap, -, -, htt, -⟩
    · exact fr fun q id => by rw [htt, kinds_issueFlush, kinds_complete]; simp
    · exact fr fun q id => by rw [htt, kinds_complete]; simp
    · exact fr fun q id => by rw [htt, kinds_complete]; simp
  | startMeta b _ hst => exact fr fun q id => by rw [(startMeta_frame hst).2.1]
  | metaDone k ok b hmc => exact fr fun q id => by rw [metaDone_t]
  | execMeta | receiveWritten | takeFinished | disconnect => exact fr fun q id => rfl
  | _ => simp [Act.isGuest] at hg

theorem Marked.boot {hdrs : Bytes} {tv : Nat → D} {mv : Nat → Bytes} {b0 : Nat → Nat → D} : Marked c (Sys.boot c hdrs tv mv b0) := by
  intro q id off cnt h
  have : (Sys.boot c hdrs tv mv b0).t.kinds (.guest q id) = none := rfl
  rw [this] at h; cases h

theorem Run.marked (ht : c.track = true) {hdrs : Bytes} {tv : Nat → D} {mv : Nat → Bytes} {b0 : Nat → Nat → D} {s : Sys D} {ls : List (Lab D)}
    (hb : Bootable c hdrs mv) (h : Run c (Sys.boot c hdrs tv mv b0) ls s) : Marked c s :=
  h.preserve (P := Marked c) (.boot hb) (fun _ _ _ _ h1 h2 h3 => step_marked ht h1 h2 h3) (fun _ _ _ _ _ _ _ _ _ _ => .boot) .boot

/-- An issued request that has not been answered is with the plain disk. -/
theorem pending_op {d d' : Disk D} {e0 e1 : List (Ev D)} {q w off cnt : Nat} {data : Nat → D}
    (hr : Disk.Run d (e0 ++ Ev.issue q w (.write off cnt data) :: e1) d') (ho : unanswered (q, w) e1) :
    ∃ done, d'.ops (q, w) = some (.write off cnt data done) := by
  obtain ⟨m0, g1, g2⟩ := hr.split e0 _ rfl
  obtain ⟨m, m', h1, h2, h3⟩ := Disk.Run.event g2
  obtain ⟨hn, rfl⟩ := issue_inv h2
  refine h3.inv (fun d => ∃ done, d.ops (q, w) = some (.write off cnt data done)) ⟨_, ops_issueWrite_same _ _ _ _ _⟩ ?_
  rintro d1 es1 d2 hs hm ⟨done, hop⟩
  obtain ⟨op', h4, h5⟩ := op_step hs (fun e he => ho e (hm e he)) hop
  obtain ⟨done', rfl⟩ := h5
  exact ⟨done', h4⟩

/-- The step that answers a write with success finds it on the data device. -/
theorem resp_write {g : Nat → D} {s s' : Sys D} {d : Disk D} {a : Act D} {ls : List (Lab D)} (hsim : Sim c g s d none) (h : Step c s a ls s')
    {q w off cnt : Nat} {data : Nat → D} {done : Nat → Bool} {o : List (Option D)} (hd : d.ops (q, w) = some (.write off cnt data done))
    (hl : Ev.resp q w true o ∈ visible ls) : s.t.kinds (.guest q w) = some (.write off cnt) := by
  by_cases hg : a.isGuest = true
  · cases h with
    | read q id off cnt b hv hg' hid => simp [visible, visible_addRead] at hl
    | write q id off cnt data b hv hid => simp [visible, visible_addWrite] at hl
    | flush q id hid => simp [visible] at hl
    | processQueue q b _ _ h => rw [visible_processQueue h] at hl; simp at hl
    | reportFinished q' id ok rest h =>
      simp only [visible, List.mem_singleton, Ev.resp.injEq] at hl
      obtain ⟨rfl, rfl, rfl, -⟩ := hl
      have := (hsim.fin q w true (by rw [h]; simp)).1
      cases this
    | baseDone q' id ok h =>
      simp only [visible, List.mem_singleton, Ev.resp.injEq] at hl
      obtain ⟨rfl, rfl, rfl, -⟩ := hl
      obtain ⟨op, hop, -⟩ := h
      rw [kinds_of_ops hop]
      have hgo := hsim.gop q w op hop
      cases op with
      | read off' cnt' got => rw [hgo.1] at hd; cases hd
      | write off' cnt' data' done' => rw [hgo.1] at hd; cases hd; rfl
      | flush snap => obtain ⟨sn, h1, -⟩ := hgo; rw [h1] at hd; cases hd
    | imageDone q' id ok off' cnt' h =>
      simp only [visible, List.mem_singleton, Ev.resp.injEq] at hl
      obtain ⟨rfl, rfl, rfl, -⟩ := hl
      obtain ⟨got, h1, -⟩ := hsim.img q w off' cnt' h
      rw [h1] at hd; cases hd
    | _ => simp [Act.isGuest] at hg
  · rw [(worker_step h (by simpa using hg)).1] at hl
    simp at hl

/-- An event of a run that is not a power loss lies in one step. -/
theorem Run.at_event {s s' : Sys D} {ls : List (Lab D)} (h : Run c s ls s') {A B : List (Ev D)} {e : Ev D}
    (hl : visible ls = A ++ e :: B) (hne : e ≠ .crash) :
    ∃ s1 a la lb s2 lc A' B', Run c s la s1 ∧ Step c s1 a lb s2 ∧ Run c s2 lc s' ∧ A = visible la ++ A' ∧ visible lb = A' ++ e :: B' := by
  induction h generalizing A B with
  | nil => simp [visible] at hl
  | @step _ _ la lb _ h hst ih =>
    rw [visible_append] at hl
    rcases List.append_eq_append_iff.mp hl with ⟨x, h1, h2⟩ | ⟨x, h1, h2⟩
    · exact ⟨_, _, la, lb, _, [], x, B, h, hst, .nil _, h1, h2⟩
    · cases x with
      | nil =>
        simp only [List.append_nil, List.nil_append] at h1 h2
        exact ⟨_, _, la, lb, _, [], [], B, h, hst, .nil _, by simp [h1], h2.symm⟩
      | cons y x =>
        simp only [List.cons_append, List.cons.injEq] at h2
        obtain ⟨rfl, h2⟩ := h2
        obtain ⟨s1, a, la', lb', s2, lc, A', B', g1, g2, g3, g4, g5⟩ := ih h1
        exact ⟨s1, a, la', lb', s2, _, A', B', g1, g2, .step g3 hst, g4, g5⟩
  | @crash _ la _ _ _ b0 h h1' h2' h3' ih =>
    rw [visible_append] at hl
    rcases List.append_eq_append_iff.mp hl with ⟨x, h1, h2⟩ | ⟨x, h1, h2⟩
    · exfalso
      cases x with
      | nil => simp [visible] at h2; exact hne h2.1.symm
      | cons y x => simp [visible] at h2
    · cases x with
      | nil => simp [visible] at h2; exact absurd h2.1 hne
      | cons y x =>
        simp only [List.cons_append, List.cons.injEq] at h2
        obtain ⟨rfl, h2⟩ := h2
        obtain ⟨s1, a, la', lb', s2, lc, A', B', g1, g2, g3, g4, g5⟩ := ih h1
        exact ⟨s1, a, la', lb', s2, _, A', B', g1, g2, .crash b0 g3 h1' h2' h3', g4, g5⟩

/-- Events of one step with a response in them: nothing else is in it. -/
theorem step_resp_alone {s s' : Sys D} {a : Act D} {ls : List (Lab D)} (h : Step c s a ls s') {q w : Nat} {ok : Bool} {o : List (Option D)}
    (hl : Ev.resp q w ok o ∈ visible ls) : visible ls = [.resp q w ok o] := by
  by_cases hg : a.isGuest = true
  · cases h with
    | read q id off cnt b hv hg' hid => simp [visible, visible_addRead] at hl
    | write q id off cnt data b hv hid => simp [visible, visible_addWrite] at hl
    | flush q id hid => simp [visible] at hl
    | processQueue q b _ _ h => rw [visible_processQueue h] at hl; simp at hl
    | reportFinished q' id ok rest h => simp only [visible, List.mem_singleton] at hl ⊢; rw [hl]
    | baseDone q' id ok h => simp only [visible, List.mem_singleton] at hl ⊢; rw [hl]
    | imageDone q' id ok off' cnt' h => simp only [visible, List.mem_singleton] at hl ⊢; rw [hl]
    | _ => simp [Act.isGuest] at hg
  · rw [(worker_step h (by simpa using hg)).1] at hl
    simp at hl

theorem acked_marked (ht : c.track = true) {hdrs : Bytes} {tv : Nat → D} {mv : Nat → Bytes} {b0 : Nat → Nat → D} {s : Sys D} {ls : List (Lab D)}
    (hb : Bootable c hdrs mv) (h : Run c (Sys.boot c hdrs tv mv b0) ls s) {e0 e1 e2 : List (Ev D)} {q w off cnt x : Nat} {data : Nat → D}
    {o : List (Option D)} (hv : visible ls = (e0 ++ Ev.issue q w (.write off cnt data) :: e1 ++ [Ev.resp q w true o]) ++ e2)
    (ho : unanswered (q, w) e1) (hx : covers off cnt x) : s.sh.ws (x / c.ss) = true ∧ x / c.ss < c.n := by
  rw [List.append_assoc, List.singleton_append] at hv
  obtain ⟨s1, a, la, lb, s2, lc, A', B', g1, g2, g3, g4, g5⟩ := h.at_event hv (by simp)
  have hal := step_resp_alone g2 (q := q) (w := w) (ok := true) (o := o) (by rw [g5]; simp)
  rw [g5] at hal
  have hA : A' = [] := by
    cases A' with
    | nil => rfl
    | cons y ys => simp at hal
  subst hA
  rw [List.append_nil] at g4
  obtain ⟨-, hfam⟩ := run_sim hb rfl g1
  obtain ⟨gg, d, -, hd, hsim⟩ := hfam.sim
  rw [← g4] at hd
  obtain ⟨done, hop⟩ := pending_op hd ho
  have hk := resp_write hsim g2 hop (o := o) (by rw [g5]; simp)
  have hw := g1.marked ht hb q w off cnt hk x hx
  have hs1 : Sound c s1 := (Sound.boot (tv := tv) (b0 := b0) hb).run g1
  have hn := (g1.winv ht hb).2 _ hw
  exact ⟨g3.written (hs1.step g2) hn ((step_mono hs1 g2).ws _ hw), hn⟩

end Verif.Lazy
