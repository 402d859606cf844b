import Verif.Proof.MetaRing

/-! # C84: refused submissions of metadata updates

`Model/MetaRing` is the metadata flusher with its real buffers, batches and io_uring queue. Stripe flags are recorded soundly as long as
no entry of a refused submission reaches the kernel. Once one does, the property is false: the flusher
has given the entry's buffer back and has forgotten it, and takes its answer for that of a newer update. -/

set_option maxRecDepth 8000

namespace Verif.MetaRing
open Verif Verif.Metadata Verif.Spec.MetaRing
open Verif.Lazy (flag)

variable {hdrs : Bytes} {disk : Nat → Bytes}

theorem flag_iff (h f : UInt8) : flag h f = true ↔ h &&& f ≠ 0 := by simp [flag]

theorem home_eq (k : Nat) : stripeIdToSector k = home k := by show k / 508 + 1 = 1 + k / 508; omega

/-- **C84** (partial: until a submission is accepted while the entry of a refused one is still in the submission queue) After
any history of updates, batches, transfers, failures and refused submissions, whatever may be found on the metadata device, after a power
loss too, shows every flag announced or there from the start, shows no flag nobody asked for, and has valid checksums. -/
theorem C84_refused_metadata_partial {as : List Act} {s : St} (hh : Holds hdrs disk) (h : Run NoLeftover (St.init hdrs disk) as s) :
    Sound hdrs disk as s := by
  have hi := Inv.run hh h
  have hlt := hi.tl
  have hf : ∀ f, IsFlag f → IsF f := fun f h => h
  refine ⟨fun k h hm f hF h1 v hv => ?_, fun k hk f hF h1 v hv => ?_, fun k hk f hF v hv h1 => ?_, fun k hk v hv => ?_, fun x hx v hv => ?_, hi.dk⟩
  · rw [← home_eq] at hv
    exact (flag_iff _ _).1 (((hi.sv _ _ hv).hdr k (hlt k h hm) rfl).t h f (hf f hF) hm ((flag_iff _ _).2 h1))
  · rw [← home_eq] at hv
    exact (flag_iff _ _).1 (((hi.sv _ _ hv).hdr k hk rfl).i f (hf f hF) ((flag_iff _ _).2 h1))
  · rw [← home_eq] at hv
    exact (((hi.sv _ _ hv).hdr k hk rfl).a f (hf f hF) ((flag_iff _ _).2 h1)).imp (flag_iff _ _).1 id
  · rw [← home_eq] at hv
    exact (hi.sv _ _ hv).valid k hk rfl
  · exact (hi.sv _ _ hv).other fun k hk e => hx k hk (by rw [← home_eq]; exact e)


/-- In particular when no submission is refused. -/
theorem C84_all_accepted {as : List Act} {s : St} (hh : Holds hdrs disk)
    (h : Run (fun _ a => a ≠ .start false ∧ ∀ cs, a ≠ .poll cs false) (St.init hdrs disk) as s) : Sound hdrs disk as s := by
  have key : Run NoLeftover (St.init hdrs disk) as s ∧ s.ring = [] := by
    induction h with
    | nil => exact ⟨.nil _, rfl⟩
    | @snoc s' s'' as a hr hp hst ih =>
      obtain ⟨h1, h2⟩ := ih
      refine ⟨h1.snoc ?_ hst, ?_⟩
      · cases a <;> first | exact trivial | exact fun _ => h2
      · cases hst with
        | setFetched => exact h2
        | setWritten => exact h2
        | exec i =>
          unfold exec
          split <;> exact h2
        | start ok =>
          cases ok with
          | false => exact absurd rfl hp.1
          | true =>
            unfold startWrites
            simp only
            by_cases he : (startLoop s'.queue s').2 = []
            · simp only [he, if_true]
              obtain ⟨_, new, h3, h4, _⟩ := startLoop_inv s'.queue (old := s'.ring) (new := []) (Inv.run hh h1) (Inv.run hh h1).q (by simp) rfl
                (fun _ hx => by simp at hx) (fun _ hx => by simp at hx)
              rw [he] at h4
              simp only [List.append_nil, List.map_eq_nil_iff] at h4
              rw [h3, h2, h4]; rfl
            · simp only [he, if_false, if_true]; rfl
        | poll cs ok l ht =>
          cases ok with
          | false => exact absurd rfl (hp.2 cs)
          | true =>
            have h0 : PollInv _ s'.ring ⟨{ s' with kern := l }, [], []⟩ s'.kern :=
              ⟨Inv.run hh h1, fun _ _ hx => by simp at hx, ⟨[], by simp, rfl, fun _ hx => by simp at hx⟩, fun _ hx => by simp at hx⟩
            have h3 := PollInv.loop ht h0
            have hk := loop_kern cs ⟨{ s' with kern := l }, [], []⟩
            unfold pollChannel
            simp only
            revert h3 hk
            generalize cs.foldl (fun p c => poll1 p c.1 c.2) ⟨{ s' with kern := l }, [], []⟩ = p
            intro h3 hk
            simp only at hk
            by_cases hf : p.flushing = []
            · simp only [hf, if_true]
              have hinv : Inv ⟨hdrs, disk, fun f k => asked as k f⟩ p.s p.flushing (p.finished.map Prod.fst) := by
                have := h3.inv
                rw [← hk] at this
                exact this
              obtain ⟨new, r1, r2, _⟩ := h3.ring
              rw [(Inv.of_tell _ hinv h3.fin).2.1, r1, h2]
              rw [hf] at r2
              simpa using r2
            · simp only [hf, if_false, if_true]; rfl
  exact C84_refused_metadata_partial hh key.1

theorem Run.split {P : St → Act → Prop} {s s' : St} {as bs : List Act} (h : Run P s (as ++ bs) s') : ∃ s1, Run P s as s1 ∧ Run P s1 bs s' := by
  generalize hc : as ++ bs = cs at h
  induction h generalizing bs with
  | nil =>
    obtain ⟨rfl, rfl⟩ := List.append_eq_nil_iff.1 hc
    exact ⟨_, .nil _, .nil _⟩
  | @snoc s1 s2 cs a hr hp hs ih =>
    rcases List.eq_nil_or_concat bs with rfl | ⟨bs, b, rfl⟩
    · rw [List.append_nil] at hc
      subst hc
      exact ⟨_, hr.snoc hp hs, .nil _⟩
    · rw [List.concat_eq_append] at hc ⊢
      rw [← List.append_assoc] at hc
      obtain ⟨h1, h2⟩ := List.append_inj' hc rfl
      obtain ⟨s0, h3, h4⟩ := ih h1
      cases h2
      exact ⟨s0, h3, h4.snoc hp hs⟩

theorem Run.last {P : St → Act → Prop} {s s' : St} {a : Act} (h : Run P s [a] s') : ∃ s1, Step s1 a s' := by
  generalize hc : [a] = cs at h
  cases h with
  | nil => cases hc
  | @snoc s1 _ as b hr hp hs =>
    have := List.append_inj' (show [] ++ [a] = as ++ [b] from hc) rfl
    cases this.2
    exact ⟨s1, hs⟩

/-- No request is forgotten: a flag asked for and no longer queued or under way is announced or was there from the start,
unless something was reported failed or refused after the request. -/
theorem C84_not_forgotten {as as' : List Act} {s : St} (hh : Holds hdrs disk) {k : Nat} {f : UInt8} {a : Act}
    (ha : (a = .setFetched k ∧ f = 1) ∨ (a = .setWritten k ∧ f = 2)) (h : Run NoLeftover (St.init hdrs disk) (as ++ [a] ++ as') s)
    (hi : Idle s k f) : (∃ hd, (k, hd) ∈ s.told ∧ hd &&& f ≠ 0) ∨ hdrs.getD k 0 &&& f ≠ 0 ∨ failed as' k := by
  obtain ⟨s2, h12, h3⟩ := h.split
  obtain ⟨s1, h1, h2⟩ := h12.split
  have hb : Req ⟨hdrs, disk, fun _ _ => False⟩ (failed []) (St.init hdrs disk) (St.init hdrs disk).queue :=
    ⟨rfl, fun k f _ _ hx => Or.inl hx, fun k u hu => by simp [St.init] at hu, fun _ _ hx => hx.elim⟩
  have hr := Req.run hh (.nil _) hb h12
  have hq : (k, f) ∈ s2.queue := by
    obtain ⟨s1', hs⟩ := h2.last
    rcases ha with ⟨rfl, rfl⟩ | ⟨rfl, rfl⟩ <;> cases hs <;> exact List.mem_append_right _ (by simp [FETCHED, WRITTEN])
  have hs := Req.run hh h12 (A := fun f' k' => f' = f ∧ k' = k)
    ⟨hr.len, hr.hd, hr.set, fun k' f' hx => by obtain ⟨rfl, rfl⟩ := hx; exact Or.inl hq⟩ h3
  rcases hs.req k f ⟨rfl, rfl⟩ with h1 | (h1 | ⟨hd, h1, h2⟩ | ⟨u, hu, _⟩) | h1
  · exact absurd h1 hi.1
  · exact Or.inr (Or.inl ((flag_iff _ _).1 h1))
  · exact Or.inl ⟨hd, h1, (flag_iff _ _).1 h2⟩
  · have := ((Inv.run hh h).upd k u hu).busy (by simp)
    rw [((Inv.run hh h).upd k u hu).sector, home_eq, hi.2] at this; cases this
  · exact Or.inr (Or.inr h1)

theorem Run.also {P : St → Act → Prop} {s s' s'' : St} {as : List Act} (h : Run P s as s') (a : Act) (hs : Step s' a s'') (hp : P s' a) :
    Run P s (as ++ [a]) s'' := h.snoc hp hs

/-! ## What goes wrong -/

/-- Any run. -/
abbrev Any (s : St) (as : List Act) (s' : St) : Prop := Run (fun _ _ => True) s as s'

theorem Any.next {s s' s'' : St} {as : List Act} {a : Act} (h : Any s as s') (hs : Step s' a s'') : Any s (as ++ [a]) s'' := h.snoc trivial hs

theorem Any.written {s s' : St} {as : List Act} (ks : List Nat) : Any s as s' → (∀ k, k ∈ ks → k < s'.hdrs.length) →
    Any s (as ++ ks.map Act.setWritten) { s' with queue := s'.queue ++ ks.map fun k => (k, WRITTEN) } := by
  induction ks generalizing s' as with
  | nil => intro h _; simpa using h
  | cons k ks ih =>
    intro h hk
    have := ih (h.next (.setWritten s' k (hk k (by simp)))) (fun k' hk' => hk k' (by simp [hk']))
    simpa only [List.map_cons, List.append_assoc, List.singleton_append] using this

/-- One stripe, no flags. -/
def disk0 : Nat → Bytes := fun _ => writeSector [0]

theorem holds0 : Holds [0] disk0 := by
  intro k hk
  have : k = 0 := by simpa using hk
  subst this
  exact ⟨writeSector_valid _, Lazy.writeSector_byte [0] 0 (by decide)⟩

theorem shows_sector (h f : UInt8) : shows (writeSector [h]) 0 f ↔ h &&& f ≠ 0 := by
  have := Lazy.writeSector_byte [h] 0 (by simp)
  have e : groupHeaders [h] (0 / 508) = [h] := rfl
  rw [e] at this
  unfold shows
  rw [this]
  rfl

def w1 : St := startWrites { St.init [0] disk0 with queue := [(0, FETCHED)] } false
def w2 : St := startWrites { w1 with queue := [(0, WRITTEN)] } true
def w3 : St := exec w2 0
def w4 : St := pollChannel { w3 with kern := [(0, .write 1 1 false)] } [(0, true)] true
def w5 : St := exec w4 1
def w6 : St := pollChannel { w5 with kern := [(0, .write 1 1 false)] } [(0, true)] true

/-- False of the code: a refused write of "fetched" is followed by an update to "written" of the same stripe. The left-over entry's answer
is taken for the new one's, and the flag is announced although the device does not show it and no power loss will reveal it. -/
theorem C84_false_refused_write : ∃ as s, Any (St.init [0] disk0) as s ∧ (0, (2 : UInt8)) ∈ s.told ∧ ∀ v, s.surv (home 0) v → ¬ shows v 0 2 := by
  have h1 : Any (St.init [0] disk0) _ w1 := ((Run.nil _).snoc trivial (.setFetched _ 0 (by decide))).snoc trivial (.start _ false)
  have h2 : Any (St.init [0] disk0) _ w2 := (h1.next (.setWritten w1 0 (by decide))).next (.start _ true)
  have h3 : Any (St.init [0] disk0) _ w3 := h2.next (.exec _ 0)
  have h4 : Any (St.init [0] disk0) _ w4 := h3.next (.poll _ [(0, true)] true [(0, .write 1 1 false)]
    (.cons _ 0 0 (.write 1 0 true) true [] _ rfl (fun _ => rfl) (.nil _)))
  have h5 : Any (St.init [0] disk0) _ w5 := h4.next (.exec _ 1)
  have h6 : Any (St.init [0] disk0) _ w6 := h5.next (.poll _ [(0, true)] true [(0, .write 1 1 false)]
    (.cons _ 1 0 _ true [] _ rfl (fun _ => rfl) (.nil _)))
  refine ⟨_, w6, h6, by decide, fun v hv => ?_⟩
  have hv' : v = writeSector [1] := hv.2
  rw [hv', shows_sector]
  decide

def f1 : St := startWrites { St.init [0] disk0 with queue := [(0, WRITTEN)] } true
def f2 : St := exec f1 0
def f3 : St := pollChannel { f2 with kern := [] } [(0, true)] false
def f4 : St := startWrites { f3 with queue := [(0, FETCHED)] } true
def f5 : St := exec f4 0
def f6 : St := pollChannel { f5 with kern := [(0, .write 1 1 false)] } [(0, true)] true
def f7 : St := exec f6 1
def f8 : St := pollChannel { f7 with kern := [(0, .write 1 1 false)] } [(0, true)] true

/-- False of the code after a refused flush as well: the flag "fetched" is announced before its write has been carried out. -/
theorem C84_false_refused_flush : ∃ as s, Any (St.init [0] disk0) as s ∧ (0, (1 : UInt8)) ∈ s.told ∧ ∀ v, s.surv (home 0) v → ¬ shows v 0 1 := by
  have h1 : Any (St.init [0] disk0) _ f1 := ((Run.nil _).snoc trivial (.setWritten _ 0 (by decide))).snoc trivial (.start _ true)
  have h2 : Any (St.init [0] disk0) _ f2 := h1.next (.exec _ 0)
  have h3 : Any (St.init [0] disk0) _ f3 := h2.next (.poll _ [(0, true)] false []
    (.cons _ 0 0 (.write 1 0 true) true [] _ rfl (fun _ => rfl) (.nil _)))
  have h4 : Any (St.init [0] disk0) _ f4 := (h3.next (.setFetched f3 0 (by decide))).next (.start _ true)
  have h5 : Any (St.init [0] disk0) _ f5 := h4.next (.exec _ 0)
  have h6 : Any (St.init [0] disk0) _ f6 := h5.next (.poll _ [(0, true)] true [(0, .write 1 1 false)]
    (.cons _ 0 0 _ true [] _ rfl (fun _ => rfl) (.nil _)))
  have h7 : Any (St.init [0] disk0) _ f7 := h6.next (.exec _ 1)
  have h8 : Any (St.init [0] disk0) _ f8 := h7.next (.poll _ [(0, true)] true [(0, .write 1 1 false)]
    (.cons _ 1 0 _ true [] _ rfl (fun _ => rfl) (.nil _)))
  refine ⟨_, f8, h8, by decide, fun v hv => ?_⟩
  have hv' : v = writeSector [2] := hv.2
  rw [hv', shows_sector]
  decide

/-! A sector of other stripes: seventeen groups, so that the buffer of the refused write comes round again. -/

def wide : Bytes := List.replicate 8636 0
def wideDisk : Nat → Bytes := fun x => writeSector (groupHeaders wide (x - 1))

theorem holdsWide : Holds wide wideDisk := by
  intro k hk
  have e : home k - 1 = k / 508 := by unfold home; omega
  refine ⟨writeSector_valid _, ?_⟩
  unfold wideDisk
  rw [e]
  exact Lazy.writeSector_byte wide k hk

/-- Stripe 5 of each of the groups 1 to 16. -/
def others : List Nat := (List.range 16).map fun i => 508 * (i + 1) + 5

def g1 : St := startWrites { St.init wide wideDisk with queue := [(0, WRITTEN)] } false
def g2 : St := startWrites { g1 with queue := g1.queue ++ others.map fun k => (k, WRITTEN) } true
def g3 : St := exec g2 0

/-- What the kernel has first: the left-over write of sector 1 from buffer 0. -/
theorem g2_kern : ∃ k, g2.kern[0]? = some (k, .write 1 0 false) := by
  have h : (match g2.kern[0]? with | some (_, KOp.write x b d) => decide (x = 1 ∧ b = 0 ∧ d = false) | _ => false) = true := by decide +kernel
  split at h
  · rename_i k x b d he
    simp only [decide_eq_true_eq] at h
    obtain ⟨rfl, rfl, rfl⟩ := h
    exact ⟨k, he⟩
  · cases h

theorem g2_buf : (g2.bufs 0).getD 5 0 &&& 2 ≠ 0 := by decide +kernel

/-- False of the code, and worse: after a refused write of sector 1, sixteen updates of other sectors reuse its buffer, and the
left-over entry writes the headers of another group over sector 1. Stripe 5 is now marked written, though nobody asked for that. -/
theorem C84_false_misplaced : ∃ as s, Any (St.init wide wideDisk) as s ∧ shows (s.disk (home 5)) 5 2 ∧ wide.getD 5 0 &&& 2 = 0 ∧ ¬ asked as 5 2 := by
  have h1 : Any (St.init wide wideDisk) [.setWritten 0, .start false] g1 :=
    ((Run.nil _).snoc trivial (.setWritten _ 0 (by decide +kernel))).snoc trivial (.start _ false)
  have hlen : g1.hdrs.length = 8636 := by decide +kernel
  have h2 : Any (St.init wide wideDisk) _ g2 := (h1.written others (by rw [hlen]; decide)).next (.start _ true)
  have h3 : Any (St.init wide wideDisk) _ g3 := h2.next (.exec _ 0)
  obtain ⟨k, hk⟩ := g2_kern
  refine ⟨_, g3, h3, ?_, by decide, by unfold asked others; decide⟩
  have e : g3.disk (home 5) = g2.bufs 0 := by
    unfold g3
    rw [exec_write hk]
    have h5 : home 5 = 1 := rfl
    rw [h5]
    simp only [put_self]
  rw [e]
  exact g2_buf

/-- The hypotheses are met by a run in which a submission is refused and an update announced, and which ends idle. -/
example : ∃ as s, Run NoLeftover (St.init [0] disk0) as s ∧ Act.start false ∈ as ∧ s.told ≠ [] ∧ Idle s 0 2 := by
  let a1 : St := startWrites { St.init [0] disk0 with queue := [(0, WRITTEN)] } true
  let a2 : St := exec a1 0
  let a3 : St := pollChannel { a2 with kern := [] } [(0, true)] true
  let a4 : St := exec a3 0
  let a5 : St := pollChannel { a4 with kern := [] } [(0, true)] true
  let a6 : St := startWrites { a5 with queue := [(0, FETCHED)] } false
  have h1 : Run NoLeftover (St.init [0] disk0) _ a1 := ((Run.nil _).also (.setWritten 0) (.setWritten _ 0 (by decide)) trivial).also (.start true) (.start _ true) (fun _ => rfl)
  have h2 : Run NoLeftover (St.init [0] disk0) _ a2 := h1.also (.exec 0) (.exec _ 0) trivial
  have h3 : Run NoLeftover (St.init [0] disk0) _ a3 := h2.also (.poll [(0, true)] true) (.poll _ [(0, true)] true []
    (.cons _ 0 0 (.write 1 0 true) true [] _ rfl (fun _ => rfl) (.nil _))) (fun _ => rfl)
  have h4 : Run NoLeftover (St.init [0] disk0) _ a4 := h3.also (.exec 0) (.exec _ 0) trivial
  have h5 : Run NoLeftover (St.init [0] disk0) _ a5 := h4.also (.poll [(0, true)] true) (.poll _ [(0, true)] true []
    (.cons _ 0 0 _ true [] _ rfl (fun _ => rfl) (.nil _))) (fun _ => rfl)
  have h6 : Run NoLeftover (St.init [0] disk0) _ a6 := (h5.also (.setFetched 0) (.setFetched a5 0 (by decide)) trivial).also (.start false) (.start _ false) (fun h => by cases h)
  exact ⟨_, a6, h6, by simp, by decide, by unfold Idle; decide⟩

end Verif.MetaRing
