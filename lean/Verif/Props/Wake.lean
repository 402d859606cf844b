import Verif.Spec.Wake

/-! # C81: nobody sleeps through work -/

namespace Verif.Wake
open Verif

variable {E : Bool} {size : Nat} {kind : Nat → Kind} {s s' : Sys}

theorem sub16_of {a b x y : Nat} (ha : a % 65536 = x % 65536) (hb : b % 65536 = y % 65536) (h1 : y ≤ x) (h2 : x < y + 65536) :
    sub16 a b = x - y := by
  obtain ⟨d, rfl⟩ : ∃ d, x = y + d := ⟨x - y, by omega⟩
  rw [sub16, ha, hb]
  omega

theorem needEvent_of {e n o event new old : Nat} (he : e % 65536 = event % 65536) (hn : n % 65536 = new % 65536)
    (ho : o % 65536 = old % 65536) (h1 : old ≤ event) (h2 : event < new) (h3 : new < old + 65536) : needEvent e n o = true := by
  have a1 : sub16 n e = new - event := sub16_of hn he (by omega) (by omega)
  have a2 : sub16 n o = new - old := sub16_of hn ho (by omega) (by omega)
  have a3 : sub16 (new - event) 1 = new - event - 1 := sub16_of rfl rfl (by omega) (by omega)
  rw [needEvent, a1, a2, a3, decide_eq_true_eq]
  omega

/-- Counting. -/
structure A (size : Nat) (s : Sys) : Prop where
  next : s.next ≤ s.avail
  old : s.old ≤ s.avail
  batch : s.avail ≤ s.old + 65535
  seen : s.seen ≤ s.ring.length
  room : s.avail ≤ s.seen + size
  perm : (s.ring ++ s.inflight).Perm (List.range s.next)

theorem A.len {size : Nat} (h : A size s) : s.ring.length + s.inflight.length = s.next := by
  have := h.perm.length_eq
  simpa using this

theorem A.init : A size Sys.init := ⟨by decide, by decide, by decide, by decide, by simp [Sys.init], List.Perm.refl _⟩

theorem perm_complete {l i : List Nat} {c : Nat} (h : c ∈ i) : ((l ++ [c]) ++ i.erase c).Perm (l ++ i) := by
  rw [List.append_assoc]
  exact List.Perm.append_left l (List.perm_cons_erase h).symm

theorem A.worker {idle : Bool} (h : A size s) (hs : size ≤ 32768) (st : WStep E kind s idle s') : A size s' := by
  obtain ⟨h1, h2, h3, h4, h5, h6⟩ := h
  cases st with
  | wake => exact ⟨h1, h2, h3, h4, h5, h6⟩
  | pop ph busy hpc hne =>
    have hlt : s.next < s.avail := by
      rcases Nat.lt_or_eq_of_le h1 with h | h
      · exact h
      · rw [h] at hne; exact absurd rfl hne
    have hr : List.range (s.next + 1) = List.range s.next ++ [s.next] := List.range_succ
    have hp : ((s.ring ++ [s.next]) ++ s.inflight).Perm (List.range (s.next + 1)) := by
      rw [hr, List.append_assoc]
      exact ((List.Perm.append_left s.ring List.perm_append_comm).trans (by rw [← List.append_assoc])).trans
        (List.Perm.append_right [s.next] h6)
    unfold Sys.pop Sys.addUsed
    cases kind s.next with
    | bad => exact ⟨hlt, h2, h3, by simp; omega, h5, hp⟩
    | now => exact ⟨hlt, h2, h3, by simp; omega, h5, hp⟩
    | dev =>
      refine ⟨hlt, h2, h3, h4, h5, ?_⟩
      show (s.ring ++ (s.inflight ++ [s.next])).Perm (List.range (s.next + 1))
      rw [hr, ← List.append_assoc]
      exact List.Perm.append_right [s.next] h6
  | popEnd => exact ⟨h1, h2, h3, h4, h5, h6⟩
  | complete ph busy c hpc hc => exact ⟨h1, h2, h3, by simp [Sys.addUsed]; omega, h5, (perm_complete hc).trans h6⟩
  | pollEnd => exact ⟨h1, h2, h3, h4, h5, h6⟩
  | check =>
    cases s.pending
    · exact ⟨h1, h2, h3, h4, h5, h6⟩
    · cases E <;> exact ⟨h1, h2, h3, h4, h5, h6⟩
  | sig => exact ⟨h1, h2, h3, h4, h5, h6⟩
  | decide => exact ⟨h1, h2, h3, h4, h5, h6⟩
  | enable => exact ⟨h1, h2, h3, h4, h5, h6⟩

theorem A.driver (h : A size s) (st : DStep E size s s') : A size s' := by
  obtain ⟨h1, h2, h3, h4, h5, h6⟩ := h
  cases st with
  | publish ha hb => exact ⟨Nat.le_succ_of_le h1, Nat.le_succ_of_le h2, by simp only; omega, h4, by simp only; omega, h6⟩
  | kick ha => exact ⟨h1, Nat.le_refl _, Nat.le_add_right .., h4, h5, h6⟩
  | extraKick => exact ⟨h1, h2, h3, h4, h5, h6⟩
  | take hr hl => exact ⟨h1, h2, h3, hl, by simp only; omega, h6⟩
  | scribble => exact ⟨h1, h2, h3, h4, h5, h6⟩
  | arm => exact ⟨h1, h2, h3, h4, h5, h6⟩
  | again => exact ⟨h1, h2, h3, h4, h5, h6⟩
  | sleep => exact ⟨h1, h2, h3, h4, h5, h6⟩
  | interrupt => exact ⟨h1, h2, h3, h4, h5, h6⟩
  | look => exact ⟨h1, h2, h3, h4, h5, h6⟩

/-- The next chain will be kicked for. -/
def Armed (s : Sys) : Prop := s.availEvent = s.next % 65536 ∧ (s.kick = true ∨ s.old ≤ s.next)

/-- There is no chain to take, or a kick is there or to come. -/
def Caught (s : Sys) : Prop := s.kick = true ∨ s.old < s.avail ∨ s.next = s.avail

/-- There is nothing to do, or a kick is there or to come. -/
def Told (s : Sys) : Prop := s.kick = true ∨ s.old < s.avail ∨ (s.next = s.avail ∧ s.inflight = [])

theorem Armed.driver (ha : A size s) (hE : E = true) (h : Armed s) (st : DStep E size s s') : Armed s' := by
  obtain ⟨h1, h2⟩ := h
  subst hE
  cases st with
  | kick hk =>
    refine ⟨h1, ?_⟩
    rcases h2 with h2 | h2
    · left; simp [h2]
    · by_cases hn : s.next < s.avail
      · left
        have := ha.batch
        have he : needEvent s.availEvent s.avail s.old = true :=
          needEvent_of (event := s.next) (new := s.avail) (old := s.old) (by rw [h1]; exact Nat.mod_mod _ _) rfl rfl h2 hn (by omega)
        simp [he]
      · right; simp only; omega
  | extraKick => exact ⟨h1, Or.inl rfl⟩
  | _ => exact ⟨h1, h2⟩

theorem Caught.driver (ha : A size s) (hE : E = false) (h : Caught s) (st : DStep E size s s') : Caught s' := by
  subst hE
  cases st with
  | publish => exact Or.inr (Or.inl (Nat.lt_succ_of_le ha.old))
  | kick => left; simp
  | extraKick => exact Or.inl rfl
  | _ => exact h

theorem Told.driver (ha : A size s) (hE : E = false) (h : Told s) (st : DStep E size s s') : Told s' := by
  subst hE
  cases st with
  | publish => exact Or.inr (Or.inl (Nat.lt_succ_of_le ha.old))
  | kick => left; simp
  | extraKick => exact Or.inl rfl
  | _ => exact h

/-- Where the worker is and what it can rely on. -/
def B (E : Bool) (s : Sys) : Prop :=
  match s.pc with
  | .wait => (E = true → Armed s ∧ s.inflight = []) ∧ (E = false → Told s)
  | .pops ph b => (E = true → ph ≠ .last ∧ (ph = .event → b = false → s.availEvent = s.next % 65536)) ∧
      (E = false → ph ≠ .event ∧ (ph = .last → Told s))
  | .polls ph b => (E = true → ph ≠ .last ∧ (ph = .event → b = false → Armed s)) ∧
      (E = false → ph ≠ .event ∧ Caught s ∧ (ph = .last → Told s))
  | .check ph b | .sig ph b | .decide ph b => ((E = true → ph ≠ .last ∧ (ph = .event → b = false → Armed s)) ∧
      (E = false → ph ≠ .event ∧ Caught s ∧ (ph = .last → Told s))) ∧ (b = false → s.inflight = [])
  | .enable => E = true

theorem B.init : B E Sys.init := ⟨fun _ => ⟨⟨rfl, Or.inr (Nat.le_refl _)⟩, rfl⟩, fun _ => Or.inr (Or.inr ⟨rfl, rfl⟩)⟩

theorem B.driver (ha : A size s) (h : B E s) (st : DStep E size s s') : B E s' := by
  have k1 : E = true → Armed s → Armed s' := fun hE h => h.driver ha hE st
  have k2 : E = false → Caught s → Caught s' := fun hE h => h.driver ha hE st
  have k3 : E = false → Told s → Told s' := fun hE h => h.driver ha hE st
  have e1 : s'.pc = s.pc := by cases st <;> rfl
  have e2 : s'.inflight = s.inflight := by cases st <;> rfl
  have e3 : s'.availEvent = s.availEvent := by cases st <;> rfl
  have e4 : s'.next = s.next := by cases st <;> rfl
  unfold B at h ⊢
  rw [e1]
  cases hp : s.pc with
  | wait => rw [hp] at h; rw [e2]; exact ⟨fun e => ⟨k1 e (h.1 e).1, (h.1 e).2⟩, fun e => k3 e (h.2 e)⟩
  | pops ph b => rw [hp] at h; rw [e3, e4]; exact ⟨h.1, fun e => ⟨(h.2 e).1, fun hl => k3 e ((h.2 e).2 hl)⟩⟩
  | polls ph b =>
    rw [hp] at h
    exact ⟨fun e => ⟨(h.1 e).1, fun a b => k1 e ((h.1 e).2 a b)⟩, fun e => ⟨(h.2 e).1, k2 e (h.2 e).2.1, fun hl => k3 e ((h.2 e).2.2 hl)⟩⟩
  | check ph b | sig ph b | decide ph b =>
    rw [hp] at h; rw [e2]
    exact ⟨⟨fun e => ⟨(h.1.1 e).1, fun a b => k1 e ((h.1.1 e).2 a b)⟩,
      fun e => ⟨(h.1.2 e).1, k2 e (h.1.2 e).2.1, fun hl => k3 e ((h.1.2 e).2.2 hl)⟩⟩, h.2⟩
  | enable => rw [hp] at h; exact h

theorem B.worker {idle : Bool} (hs : size ≤ 32768) (ha : A size s) (h : B E s) (st : WStep E kind s idle s') : B E s' := by
  cases st with
  | wake hpc hk => exact ⟨fun _ => ⟨by decide, fun h => (by cases h)⟩, fun _ => ⟨by decide, fun h => (by cases h)⟩⟩
  | pop ph busy hpc hne =>
    rw [B, hpc] at h
    have hlt : s.next < s.avail := by
      rcases Nat.lt_or_eq_of_le ha.next with h | h
      · exact h
      · rw [h] at hne; exact absurd rfl hne
    have e1 : (s.pop kind ph).pc = .pops ph true := by unfold Sys.pop Sys.addUsed; cases kind s.next <;> rfl
    have e2 : (s.pop kind ph).kick = s.kick := by unfold Sys.pop Sys.addUsed; cases kind s.next <;> rfl
    have e3 : (s.pop kind ph).old = s.old := by unfold Sys.pop Sys.addUsed; cases kind s.next <;> rfl
    have e4 : (s.pop kind ph).avail = s.avail := by unfold Sys.pop Sys.addUsed; cases kind s.next <;> rfl
    rw [B, e1]
    refine ⟨fun e => ⟨(h.1 e).1, fun _ hb => by cases hb⟩, fun e => ⟨(h.2 e).1, fun hl => ?_⟩⟩
    unfold Told
    rw [e2, e3, e4]
    rcases (h.2 e).2 hl with h | h | h
    · exact Or.inl h
    · exact Or.inr (Or.inl h)
    · omega
  | popEnd ph busy hpc hq =>
    rw [B, hpc] at h
    have he : s.next = s.avail := by have := ha.len; have := ha.room; have := ha.seen; have := ha.next; omega
    exact ⟨fun e => ⟨(h.1 e).1, fun a b => ⟨(h.1 e).2 a b, Or.inr (by have := ha.old; simp only; omega)⟩⟩,
      fun e => ⟨(h.2 e).1, Or.inr (Or.inr he), (h.2 e).2⟩⟩
  | complete ph busy c hpc hc =>
    rw [B, hpc] at h
    have hn : s.inflight ≠ [] := fun h => by rw [h] at hc; exact absurd hc (List.not_mem_nil)
    have : B E { s.addUsed c with inflight := s.inflight.erase c, pending := true } := by
      unfold B
      simp only [Sys.addUsed, hpc]
      refine ⟨h.1, fun e => ⟨(h.2 e).1, (h.2 e).2.1, fun hl => ?_⟩⟩
      rcases (h.2 e).2.2 hl with h | h | h
      · exact Or.inl h
      · exact Or.inr (Or.inl h)
      · exact absurd h.2 hn
    exact this
  | pollEnd ph busy hpc =>
    rw [B, hpc] at h
    refine ⟨⟨fun e => ⟨(h.1 e).1, fun a b => (h.1 e).2 a ?_⟩, h.2⟩, fun hb => ?_⟩
    · simp only [Bool.or_eq_false_iff] at b; exact b.1
    · simp only [Bool.or_eq_false_iff, Bool.not_eq_false', List.isEmpty_iff] at hb; exact hb.2
  | check ph busy hpc =>
    rw [B, hpc] at h
    cases hp : s.pending with
    | false => exact h
    | true =>
      cases E with
      | false => exact h
      | true =>
        simp only [if_true]
        unfold B
        split <;> rename_i hx <;> (simp only at hx; split at hx <;> cases hx) <;> exact h
  | sig ph busy hpc => rw [B, hpc] at h; exact h
  | decide ph busy el hpc =>
    rw [B, hpc] at h
    obtain ⟨⟨h1, h2⟩, h3⟩ := h
    cases ph with
    | poll =>
      cases busy with
      | true => exact ⟨fun _ => ⟨by decide, fun h => (by cases h)⟩, fun _ => ⟨by decide, fun h => (by cases h)⟩⟩
      | false =>
        cases el with
        | false => exact ⟨fun _ => ⟨by decide, fun h => (by cases h)⟩, fun _ => ⟨by decide, fun h => (by cases h)⟩⟩
        | true =>
          cases E with
          | true => exact rfl
          | false =>
            refine ⟨fun h => (by cases h), fun e => ⟨by decide, fun _ => ?_⟩⟩
            rcases (h2 e).2.1 with h | h | h
            · exact Or.inl h
            · exact Or.inr (Or.inl h)
            · exact Or.inr (Or.inr ⟨h, h3 rfl⟩)
    | event =>
      cases busy with
      | true =>
        cases E with
        | true => exact rfl
        | false => exact absurd rfl (h2 rfl).1
      | false => exact ⟨fun e => ⟨(h1 e).2 rfl rfl, h3 rfl⟩, fun e => absurd rfl (h2 e).1⟩
    | last => exact ⟨fun e => absurd rfl (h1 e).1, fun e => (h2 e).2.2 rfl⟩
  | enable hpc =>
    rw [B, hpc] at h
    exact ⟨fun _ => ⟨by decide, fun _ _ => rfl⟩, fun e => by rw [h] at e; cases e⟩

theorem Run.inv {P : Sys → Prop} (hs : size ≤ 32768) (h : Run E size kind P s) : A size s ∧ B E s := by
  induction h with
  | init => exact ⟨A.init, B.init⟩
  | worker _ st _ ih => exact ⟨ih.1.worker hs st, B.worker hs ih.1 ih.2 st⟩
  | driver _ st _ ih => exact ⟨ih.1.driver st, B.driver ih.1 ih.2 st⟩

theorem Run.holds {P : Sys → Prop} (h : Run E size kind P s) : P s := by
  cases h <;> assumption

/-- A look at the ring has come to nothing, and no signal has been decided on. -/
def Pc.quiet : Pc → Bool
  | .decide .. => true
  | .wait => true
  | .enable => true
  | _ => false

/-- The signal is about to be sent. -/
def Pc.signalling : Pc → Bool
  | .sig .. => true
  | _ => false

/-- Signals. -/
structure C (E : Bool) (kind : Nat → Kind) (s : Sys) : Prop where
  pend : E = true → s.pending = true ∨ ∀ c ∈ s.ring.drop (s.ring.length - s.added), kind c = .bad
  event : E = true → s.irq ≠ .run → s.usedEvent = s.seen % 65536
  sleepE : E = true → s.irq = .sleep → s.ring.length ≤ s.seen + s.added ∨ s.call = true ∨ s.pc.signalling = true
  sleepN : E = false → s.irq = .sleep → (∀ c ∈ s.ring.drop s.seen, kind c = .bad) ∨ s.call = true ∨ s.pc.signalling = true ∨ s.pending = true
  quiet : s.pc.quiet = true → (E = true → s.pending = true → s.added = 0) ∧ (E = false → s.pending = false)
  sig : s.pc.signalling = true → E = true → s.added = 0

theorem C.init : C E kind Sys.init :=
  ⟨fun _ => Or.inr fun _ h => (by cases h), fun _ h => absurd rfl h, fun _ h => (by cases h), fun _ h => (by cases h),
    fun _ => ⟨fun _ _ => rfl, fun _ => rfl⟩, fun h => (by cases h)⟩

theorem C.driver (hs : size ≤ 32768) (ha : A size s) (h : C E kind s) (st : DStep E size s s') : C E kind s' := by
  obtain ⟨h1, h2, h3, h3', h4, h5⟩ := h
  cases st with
  | publish | kick | extraKick => exact ⟨h1, h2, h3, h3', h4, h5⟩
  | take hr hl =>
    exact ⟨h1, fun _ hn => absurd hr hn, fun _ h => (by rw [show _ = Irq.run from hr] at h; cases h),
      fun _ h => (by rw [show _ = Irq.run from hr] at h; cases h), h4, h5⟩
  | scribble e hr =>
    exact ⟨h1, fun _ hn => absurd hr hn, fun _ h => (by rw [show _ = Irq.run from hr] at h; cases h),
      fun _ h => (by rw [show _ = Irq.run from hr] at h; cases h), h4, h5⟩
  | arm hr => exact ⟨h1, fun _ _ => rfl, fun _ h => (by cases h), fun _ h => (by cases h), h4, h5⟩
  | again hr hn => exact ⟨h1, fun _ hn => absurd rfl hn, fun _ h => (by cases h), fun _ h => (by cases h), h4, h5⟩
  | sleep hr hq =>
    have he : s.seen = s.ring.length := by
      have := ha.len; have := ha.room; have := ha.seen; have := ha.next
      omega
    refine ⟨h1, fun e _ => h2 e (by rw [hr]; decide), fun _ _ => Or.inl (by simp only; omega), fun _ _ => Or.inl ?_, h4, h5⟩
    simp [he]
  | interrupt hc => exact ⟨h1, fun _ hn => absurd rfl hn, fun _ h => (by cases h), fun _ h => (by cases h), h4, h5⟩
  | look => exact ⟨h1, fun _ hn => absurd rfl hn, fun _ h => (by cases h), fun _ h => (by cases h), h4, h5⟩

theorem C.worker {idle : Bool} (hs : size ≤ 32768) (ha : A size s) (hw : E = true → s.added < 65536)
    (h : C E kind s) (st : WStep E kind s idle s') : C E kind s' := by
  obtain ⟨h1, h2, h3, h3', h4, h5⟩ := h
  have ret : ∀ c i n pc p, pc.quiet = false → pc.signalling = false → s.pc.signalling = false → (p = true ∨ p = s.pending ∧ kind c = .bad) →
      C E kind { s.addUsed c with inflight := i, next := n, pc := pc, pending := p } := by
    intro c i n pc p hq hsg hsg' hp
    refine ⟨fun e => ?_, h2, fun e hsl => ?_, fun e hsl => ?_, fun h => (by rw [show _ = false from hq] at h; cases h),
      fun h => (by rw [show _ = false from hsg] at h; cases h)⟩
    · rcases hp with hp | ⟨hp, hb⟩
      · exact Or.inl hp
      · rcases h1 e with h | h
        · exact Or.inl (by simp only; rw [hp]; exact h)
        · refine Or.inr fun x hx => ?_
          simp only [Sys.addUsed, List.length_append, List.length_cons, List.length_nil] at hx
          rw [List.drop_append_of_le_length (by omega)] at hx
          rcases List.mem_append.1 hx with hx | hx
          · refine h x ?_
            rw [show s.ring.length + (0 + 1) - (s.added + 1) = s.ring.length - s.added by omega] at hx
            exact hx
          · rw [List.mem_singleton] at hx; rw [hx]; exact hb
    · rcases h3 e hsl with h | h | h
      · exact Or.inl (by simp [Sys.addUsed]; omega)
      · exact Or.inr (Or.inl h)
      · rw [hsg'] at h; cases h
    · rcases hp with hp | ⟨hp, hb⟩
      · exact Or.inr (Or.inr (Or.inr hp))
      · rcases h3' e hsl with h | h | h | h
        · refine Or.inl fun x hx => ?_
          simp only [Sys.addUsed] at hx
          rw [List.drop_append_of_le_length ha.seen] at hx
          rcases List.mem_append.1 hx with hx | hx
          · exact h x hx
          · rw [List.mem_singleton] at hx; rw [hx]; exact hb
        · exact Or.inr (Or.inl h)
        · rw [hsg'] at h; cases h
        · exact Or.inr (Or.inr (Or.inr (by simp only; rw [hp]; exact h)))
  cases st with
  | wake hpc hk => rw [hpc] at h3 h3'; exact ⟨h1, h2, h3, h3', fun h => (by cases h), fun h => (by cases h)⟩
  | pop ph busy hpc hne =>
    unfold Sys.pop
    have hsg : s.pc.signalling = false := by rw [hpc]; rfl
    cases hk : kind s.next with
    | bad => exact ret s.next s.inflight (s.next + 1) (.pops ph true) s.pending rfl rfl hsg (Or.inr ⟨rfl, hk⟩)
    | now => exact ret s.next s.inflight (s.next + 1) (.pops ph true) true rfl rfl hsg (Or.inl rfl)
    | dev => rw [hpc] at h3 h3'; exact ⟨h1, h2, h3, h3', fun h => (by cases h), fun h => (by cases h)⟩
  | popEnd ph busy hpc hq => rw [hpc] at h3 h3'; exact ⟨h1, h2, h3, h3', fun h => (by cases h), fun h => (by cases h)⟩
  | complete ph busy c hpc hc =>
    exact ret c (s.inflight.erase c) s.next s.pc true (by rw [hpc]; rfl) (by rw [hpc]; rfl) (by rw [hpc]; rfl) (Or.inl rfl)
  | pollEnd ph busy hpc => rw [hpc] at h3 h3'; exact ⟨h1, h2, h3, h3', fun h => (by cases h), fun h => (by cases h)⟩
  | check ph busy hpc =>
    rw [hpc] at h3 h3'
    cases hp : s.pending with
    | false =>
      rw [if_neg (by decide)]
      rw [hp] at h1 h3'
      refine ⟨h1, h2, h3, h3', fun _ => ⟨fun _ h => (by cases h), fun _ => rfl⟩, fun h => (by cases h)⟩
    | true =>
      rw [if_pos rfl]
      cases E with
      | false =>
        exact ⟨fun h => (by cases h), fun h => (by cases h), fun h => (by cases h), fun _ _ => Or.inr (Or.inr (Or.inl rfl)), fun h => (by cases h),
          fun _ h => (by cases h)⟩
      | true =>
        rw [if_pos rfl]
        cases hn : needEvent s.usedEvent s.ring.length (sub16 s.ring.length s.added) with
        | true =>
          exact ⟨fun _ => Or.inl rfl, h2, fun _ _ => Or.inr (Or.inr rfl), fun h => (by cases h), fun h => (by cases h), fun _ _ => rfl⟩
        | false =>
          refine ⟨fun _ => Or.inl rfl, h2, fun _ hsl => ?_, fun h => (by cases h), fun _ => ⟨fun _ _ => rfl, fun h => (by cases h)⟩, fun _ _ => rfl⟩
          rcases h3 rfl hsl with h | h | h
          · left
            have hle := h
            have := ha.len; have := ha.room; have := ha.seen; have := ha.next; have hw := hw rfl
            simp only
            refine Decidable.byContradiction fun hne => ?_
            have he := h2 rfl (by rw [hsl]; decide)
            have : needEvent s.usedEvent s.ring.length (sub16 s.ring.length s.added) = true := by
              by_cases ho : s.added ≤ s.ring.length
              · exact needEvent_of (event := s.seen) (new := s.ring.length) (old := s.ring.length - s.added) (by rw [he]; exact Nat.mod_mod _ _) rfl
                  (by rw [sub16]; omega) (by omega) (by omega) (by omega)
              · exact needEvent_of (event := s.seen + 65536) (new := s.ring.length + 65536) (old := s.ring.length + 65536 - s.added)
                  (by rw [he]; omega) (by omega) (by rw [sub16]; omega) (by omega) (by omega) (by omega)
            rw [this] at hn
            cases hn
          · exact Or.inr (Or.inl h)
          · cases h
  | sig ph busy hpc =>
    have h0 := h5 (by rw [hpc]; rfl)
    exact ⟨fun e => Or.inr (by simp [h0 e]), h2, fun _ _ => Or.inr (Or.inl rfl), fun _ _ => Or.inr (Or.inl rfl),
      fun _ => ⟨fun e _ => h0 e, fun _ => rfl⟩, fun h => (by cases h)⟩
  | decide ph busy el hpc =>
    have hq := h4 (by rw [hpc]; rfl)
    rw [hpc] at h3 h3'
    have hx : (afterQueue E ph busy el).signalling = false := by
      cases E <;> cases ph <;> cases busy <;> cases el <;> rfl
    exact ⟨h1, h2, fun e h => by simp only; rw [hx]; exact h3 e h, fun e h => by simp only; rw [hx]; exact h3' e h, fun _ => hq,
      fun h => (by rw [show _ = false from hx] at h; cases h)⟩
  | enable hpc =>
    rw [hpc] at h3 h3'
    exact ⟨h1, h2, h3, h3', fun h => (by cases h), fun h => (by cases h)⟩

theorem Run.signals {P : Sys → Prop} (hs : size ≤ 32768) (hP : ∀ s, P s → E = true → s.added < 65536)
    (h : Run E size kind P s) : C E kind s := by
  induction h with
  | init => exact C.init
  | worker r st _ ih => exact C.worker hs (r.inv hs).1 (hP _ r.holds) ih st
  | driver r st _ ih => exact C.driver hs (r.inv hs).1 ih st

/-- Returned chains not yet accounted for, when every chain goes through the channel. -/
def D (size : Nat) (s : Sys) : Prop :=
  (0 < s.added → s.pending = true) ∧
  match s.pc with
  | .polls .. => s.added + s.inflight.length ≤ size
  | .check .. => s.added ≤ size
  | _ => s.added = 0

theorem D.le (ha : D size s) : s.added ≤ size := by
  unfold D at ha
  obtain ⟨_, h⟩ := ha
  split at h <;> omega

theorem D.driver (h : D size s) (st : DStep E size s s') : D size s' := by
  cases st <;> exact h

theorem D.worker {idle : Bool} (hE : E = true) (hg : ∀ c, kind c = .dev) (ha : A size s) (h : D size s) (st : WStep E kind s idle s') :
    D size s' := by
  subst hE
  obtain ⟨h1, h2⟩ := h
  cases st with
  | wake hpc hk => rw [hpc] at h2; exact ⟨h1, h2⟩
  | pop ph busy hpc hne => rw [hpc] at h2; unfold Sys.pop; rw [hg]; exact ⟨h1, h2⟩
  | popEnd ph busy hpc hq =>
    rw [hpc] at h2
    refine ⟨h1, ?_⟩
    have := ha.len; have := ha.room; have := ha.seen; have := ha.next
    simp only at h2 ⊢
    omega
  | complete ph busy c hpc hc =>
    rw [hpc] at h2
    refine ⟨fun _ => rfl, ?_⟩
    have := List.length_erase_of_mem hc
    have := List.length_pos_of_mem hc
    simp only [hpc, Sys.addUsed] at h2 ⊢
    omega
  | pollEnd ph busy hpc => rw [hpc] at h2; exact ⟨h1, by simp only at h2 ⊢; omega⟩
  | check ph busy hpc =>
    cases hp : s.pending with
    | false =>
      rw [hp] at h1
      refine ⟨fun h => ?_, ?_⟩
      · cases h1 h
      · show s.added = 0
        rcases Nat.eq_zero_or_pos s.added with h | h
        · exact h
        · cases h1 h
    | true =>
      simp only [if_true]
      refine ⟨fun h => absurd h (by simp), ?_⟩
      cases needEvent s.usedEvent s.ring.length (sub16 s.ring.length s.added) <;> rfl
  | sig ph busy hpc => rw [hpc] at h2; exact ⟨fun h => by have h2 : s.added = 0 := h2; simp only at h; omega, h2⟩
  | decide ph busy el hpc =>
    rw [hpc] at h2
    refine ⟨h1, ?_⟩
    have h2 : s.added = 0 := h2
    cases ph <;> cases busy <;> cases el <;> exact h2
  | enable hpc => rw [hpc] at h2; exact ⟨h1, h2⟩

theorem Reach.small (hs : size ≤ 32768) (hg : E = true → ∀ c, kind c = .dev) (h : Reach E size kind s) :
    Run E size kind (fun s => E = true → s.added < 65536) s ∧ (E = true → D size s) := by
  induction h with
  | init => exact ⟨.init fun _ => by decide, fun _ => ⟨fun h => absurd h (by decide), rfl⟩⟩
  | worker r st _ ih =>
    have hd := fun e => D.worker e (hg e) (r.inv hs).1 (ih.2 e) st
    exact ⟨.worker ih.1 st fun e => by have := (hd e).le; omega, hd⟩
  | driver r st _ ih =>
    have hd := fun e => D.driver (ih.2 e) st
    exact ⟨.driver ih.1 st fun e => by have := (hd e).le; omega, hd⟩

/-! ### The worker -/

/-- **C81** Whatever the driver and the worker do, in whatever order: when the worker is asleep, nothing will wake it and the
driver has decided on its kicks, every chain made available has been returned, once, and the channel has nothing left. This is
so with and without the event index and for malformed chains too. -/
theorem C81_worker (hs : size ≤ 32768) (h : Reach E size kind s) (hw : WorkerAsleep s) : AllAnswered s ∧ s.inflight = [] := by
  obtain ⟨ha, hb⟩ := Run.inv hs h
  obtain ⟨h1, h2, h3⟩ := hw
  rw [B, h1] at hb
  have : s.next = s.avail ∧ s.inflight = [] := by
    cases E with
    | true =>
      obtain ⟨⟨_, hk⟩, hi⟩ := hb.1 rfl
      have := ha.next
      rcases hk with hk | hk
      · rw [h2] at hk; cases hk
      · exact ⟨by omega, hi⟩
    | false =>
      rcases hb.2 rfl with hk | hk | hk
      · rw [h2] at hk; cases hk
      · omega
      · exact hk
  refine ⟨?_, this.2⟩
  have hp := ha.perm
  rw [this.2, List.append_nil, this.1] at hp
  exact hp

/-- **C81** With the event index the worker never goes to sleep with requests left in the channel, whatever the driver does. -/
theorem C81_idle_partial (hs : size ≤ 32768) (h : Reach true size kind s) (hw : s.pc = .wait) : s.inflight = [] := by
  have hb := (Run.inv hs h).2
  rw [B, hw] at hb
  exact (hb.1 rfl).2

/-! ### The signal -/

theorem signal_core {P : Sys → Prop} (hs : size ≤ 32768) (hP : ∀ s, P s → E = true → s.added < 65536)
    (h : Run E size kind P s) (hw : s.pc = .wait) (hd : DriverAsleep s) : ∀ c ∈ s.ring.drop s.seen, kind c = .bad := by
  have hc := Run.signals hs hP h
  have ha := (Run.inv hs h).1
  have hq := hc.quiet (by rw [hw]; rfl)
  cases E with
  | true =>
    rcases hc.sleepE rfl hd.1 with h | h | h
    · intro c hm
      rcases hc.pend rfl with hp | hp
      · have := hq.1 rfl hp
        rw [List.drop_of_length_le (by omega)] at hm
        cases hm
      · refine hp c ?_
        rw [show s.seen = (s.ring.length - s.added) + (s.seen - (s.ring.length - s.added)) by omega, ← List.drop_drop] at hm
        exact List.mem_of_mem_drop hm
    · rw [hd.2] at h; cases h
    · rw [hw] at h; cases h
  | false =>
    rcases hc.sleepN rfl hd.1 with h | h | h | h
    · exact h
    · rw [hd.2] at h; cases h
    · rw [hw] at h; cases h
    · rw [hq.2 rfl] at h; cases h

theorem all_seen (hs : size ≤ 32768) (h : Reach E size kind s) (hg : ∀ c, kind c ≠ .bad) (hw : WorkerAsleep s)
    (hc : ∀ c ∈ s.ring.drop s.seen, kind c = .bad) : AllAnswered s ∧ s.seen = s.avail := by
  obtain ⟨h1, _⟩ := C81_worker hs h hw
  refine ⟨h1, ?_⟩
  have hl := h1.length_eq
  rw [List.length_range] at hl
  have := (Run.inv hs h).1.seen
  cases hd : s.ring.drop s.seen with
  | nil =>
    have := congrArg List.length hd
    rw [List.length_drop, List.length_nil] at this
    omega
  | cons c l => exact absurd (hc c (by rw [hd]; exact List.mem_cons_self ..)) (hg c)

/-- **C81** Without the event index, when no chain is malformed: the two sides are never both asleep while something is left to
do or to see. When nothing will wake the worker and nothing will wake the driver, every chain has been returned and the driver
has looked at all of them. -/
theorem C81_both_partial (hs : size ≤ 32768) (hg : ∀ c, kind c ≠ .bad) (h : Reach false size kind s) (hw : WorkerAsleep s)
    (hd : DriverAsleep s) : AllAnswered s ∧ s.seen = s.avail :=
  all_seen hs h hg hw (signal_core hs (fun _ _ h => by cases h) h hw.1 hd)

/-- **C81** Without the event index and with malformed chains among the others: only malformed ones are left unseen. -/
theorem C81_unseen_partial (hs : size ≤ 32768) (h : Reach false size kind s) (hw : WorkerAsleep s) (hd : DriverAsleep s) :
    AllAnswered s ∧ ∀ c ∈ s.ring.drop s.seen, kind c = .bad :=
  ⟨(C81_worker hs h hw).1, signal_core hs (fun _ _ h => by cases h) h hw.1 hd⟩

/-- **C81** The same with the event index, if every chain goes through the I/O channel. -/
theorem C81_both_event_partial (hs : size ≤ 32768) (hg : ∀ c, kind c = .dev) (h : Reach true size kind s) (hw : WorkerAsleep s)
    (hd : DriverAsleep s) : AllAnswered s ∧ s.seen = s.avail :=
  all_seen hs h (fun c => by rw [hg]; decide) hw
    (signal_core hs (fun _ h => h) (Reach.small hs (fun _ => hg) h).1 hw.1 hd)

/-- **C81** The same with the event index and chains of all kinds, as long as there are never 65536 returned chains that no decision
to signal has been taken for: only malformed chains are left unseen. -/
theorem C81_unseen_event_partial (hs : size ≤ 32768) (h : Run true size kind (fun s => s.added < 65536) s) (hw : WorkerAsleep s)
    (hd : DriverAsleep s) : AllAnswered s ∧ ∀ c ∈ s.ring.drop s.seen, kind c = .bad := by
  have hr : Reach true size kind s := by
    clear hw hd
    induction h with
    | init => exact .init trivial
    | worker _ st _ ih => exact .worker ih st trivial
    | driver _ st _ ih => exact .driver ih st trivial
  exact ⟨(C81_worker hs hr hw).1, signal_core hs (fun _ h _ => h) h hw.1 hd⟩

/-! ### Work gets done -/

/-- How far from done a place in the loop is. -/
def Pc.rank : Pc → Nat
  | .wait => 0
  | .enable => 6
  | .pops ph b => 4 + base ph b
  | .polls ph b => 3 + base ph b
  | .check ph b => 2 + base ph b
  | .sig ph b => 1 + base ph b
  | .decide ph b => base ph b
where
  base : Phase → Bool → Nat
    | .last, _ => 1
    | .event, false => 1
    | .event, true => 7
    | .poll, false => 7
    | .poll, true => 12

def measure (s : Sys) : Nat := 12 * (s.avail - s.next) + 2 * s.inflight.length + (if s.kick then 30 else 0) + s.pc.rank

theorem measure_step {idle : Bool} (ha : A size s) (st : WStep E kind s idle s') :
    measure s' + (if idle then 0 else 1) ≤ measure s + (if idle then 5 else 0) := by
  have base_le : ∀ ph b, Pc.rank.base ph b ≤ 12 ∧ Pc.rank.base ph true ≤ Pc.rank.base ph b + 6 := by
    intro ph b; cases ph <;> cases b <;> decide
  cases st with
  | wake hpc hk => simp [measure, hpc, hk, Pc.rank, Pc.rank.base]
  | pop ph busy hpc hne =>
    have hlt : s.next < s.avail := by
      rcases Nat.lt_or_eq_of_le ha.next with h | h
      · exact h
      · rw [h] at hne; exact absurd rfl hne
    have := base_le ph busy
    unfold Sys.pop Sys.addUsed
    cases kind s.next <;> simp [measure, hpc, Pc.rank] <;> omega
  | popEnd ph busy hpc hq => simp [measure, hpc, Pc.rank]; omega
  | complete ph busy c hpc hc =>
    have := List.length_erase_of_mem hc
    have := List.length_pos_of_mem hc
    simp [measure, Sys.addUsed, hpc, Pc.rank]
    omega
  | pollEnd ph busy hpc =>
    cases hi : s.inflight with
    | nil => simp [measure, hpc, hi, Pc.rank]; omega
    | cons a l =>
      have := base_le ph busy
      simp [measure, hpc, hi, Pc.rank]; omega
  | check ph busy hpc =>
    cases hp : s.pending with
    | false => simp [measure, hpc, Pc.rank]; omega
    | true =>
      cases E with
      | false => simp [measure, hpc, Pc.rank]; omega
      | true => cases hn : needEvent s.usedEvent s.ring.length (sub16 s.ring.length s.added) <;> simp [measure, hpc, Pc.rank] <;> omega
  | sig ph busy hpc => simp [measure, hpc, Pc.rank]; omega
  | decide ph busy el hpc =>
    cases E <;> cases ph <;> cases busy <;> cases el <;> simp [measure, hpc, afterQueue, Pc.rank, Pc.rank.base] <;> omega
  | enable hpc => simp [measure, hpc, Pc.rank, Pc.rank.base]

theorem Work.a {n k : Nat} (hs : size ≤ 32768) (ha : A size s) (h : Work E kind s n k s') : A size s' := by
  induction h with
  | nil => exact ha
  | useful _ st ih => exact ih.worker hs st
  | idle _ st ih => exact ih.worker hs st

theorem Work.measure {n k : Nat} (hs : size ≤ 32768) (ha : A size s) (h : Work E kind s n k s') :
    measure s' + n ≤ measure s + 5 * k := by
  induction h with
  | nil => simp
  | useful w st ih => have := measure_step (w.a hs ha) st; simp at this; omega
  | idle w st ih => have := measure_step (w.a hs ha) st; simp at this; omega

/-- **C81** The worker does not spin: left alone, in any reachable state, it does at most as many steps as this, in terms of the
chains to be taken, the requests in the channel and how often it looked at a channel that had nothing to report or waited for the
polling time to pass. -/
theorem C81_bounded {n k : Nat} (hs : size ≤ 32768) (h : Reach E size kind s) (hw : Work E kind s n k s') :
    n ≤ 12 * (s.avail - s.next) + 2 * s.inflight.length + 5 * k + 46 := by
  have h1 := Work.measure hs (Run.inv hs h).1 hw
  have h2 : s.pc.rank ≤ 16 := by
    cases hp : s.pc with
    | wait | enable => simp [Pc.rank]
    | pops ph b | polls ph b | check ph b | sig ph b | decide ph b => cases ph <;> cases b <;> simp [Pc.rank, Pc.rank.base]
  unfold Wake.measure at h1
  by_cases hk : s.kick = true
  · rw [if_pos hk] at h1; omega
  · rw [if_neg hk] at h1; omega

/-- **C81** The worker is never stuck: unless it is asleep and not kicked there is something it can do that does not just pass
time, once the channel reports. -/
theorem C81_not_stuck (h : s.pc ≠ .wait ∨ s.kick = true) : ∃ s', WStep E kind s false s' := by
  cases hp : s.pc with
  | wait =>
    rcases h with h | h
    · exact absurd hp h
    · exact ⟨_, .wake s hp h⟩
  | pops ph b =>
    by_cases hq : s.avail % 65536 = s.next % 65536
    · exact ⟨_, .popEnd s ph b hp hq⟩
    · exact ⟨_, .pop s ph b hp hq⟩
  | polls ph b =>
    cases hi : s.inflight with
    | nil => have := WStep.pollEnd (eventIdx := E) (kind := kind) s ph b hp; rw [hi] at this; exact ⟨_, this⟩
    | cons c l => exact ⟨_, .complete s ph b c hp (by rw [hi]; exact List.mem_cons_self ..)⟩
  | check ph b => exact ⟨_, .check s ph b hp⟩
  | sig ph b => exact ⟨_, .sig s ph b hp⟩
  | decide ph b => have := WStep.decide (eventIdx := E) (kind := kind) s ph b true hp; simp only [Bool.not_true, Bool.and_false] at this; exact ⟨_, this⟩
  | enable => exact ⟨_, .enable s hp⟩

theorem Work.reach {n k : Nat} (h : Reach E size kind s) (hw : Work E kind s n k s') : Reach E size kind s' := by
  induction hw with
  | nil => exact h
  | useful _ st ih => exact .worker ih st trivial
  | idle _ st ih => exact .worker ih st trivial

theorem Work.same {n k : Nat} (hw : Work E kind s n k s') : s'.avail = s.avail ∧ s'.old = s.old := by
  have step : ∀ {a b : Sys} {i : Bool}, WStep E kind a i b → b.avail = a.avail ∧ b.old = a.old := by
    intro a b i st
    cases st with
    | pop ph busy hpc hne => unfold Sys.pop Sys.addUsed; cases kind a.next <;> exact ⟨rfl, rfl⟩
    | check ph busy hpc => cases a.pending <;> cases E <;> exact ⟨rfl, rfl⟩
    | _ => exact ⟨rfl, rfl⟩
  induction hw with
  | nil => exact ⟨rfl, rfl⟩
  | useful _ st ih => exact ⟨(step st).1.trans ih.1, (step st).2.trans ih.2⟩
  | idle _ st ih => exact ⟨(step st).1.trans ih.1, (step st).2.trans ih.2⟩

theorem work_prepend {m n k : Nat} {s'' : Sys} (h : Work E kind s m 0 s') (h' : Work E kind s' n k s'') : Work E kind s (m + n) k s'' := by
  induction h' with
  | nil => exact h
  | useful _ st ih => exact .useful ih st
  | idle _ st ih => exact .idle ih st

/-- **C81** From every reachable state the worker, left alone and with a channel that reports, comes to rest; and once the driver has
decided on its kicks, it rests with every chain answered. -/
theorem C81_comes_to_rest (hs : size ≤ 32768) (h : Reach E size kind s) :
    ∃ n s', Work E kind s n 0 s' ∧ n ≤ 12 * (s.avail - s.next) + 2 * s.inflight.length + 46 ∧ s'.pc = .wait ∧ s'.kick = false ∧
      (s.old = s.avail → AllAnswered s' ∧ s'.inflight = [] ∧ s'.avail = s.avail) := by
  suffices H : ∀ m s, measure s ≤ m → Reach E size kind s → ∃ n s', Work E kind s n 0 s' ∧ s'.pc = .wait ∧ s'.kick = false by
    obtain ⟨n, s', hw, h1, h2⟩ := H _ s (Nat.le_refl _) h
    have hb := C81_bounded hs h hw
    refine ⟨n, s', hw, by omega, h1, h2, fun ho => ?_⟩
    have := hw.same
    obtain ⟨r1, r2⟩ := C81_worker hs (hw.reach h) ⟨h1, h2, by omega⟩
    exact ⟨r1, r2, this.1⟩
  intro m
  induction m with
  | zero =>
    intro s hm hr
    by_cases hc : s.pc ≠ .wait ∨ s.kick = true
    · obtain ⟨s', st⟩ := C81_not_stuck (E := E) (kind := kind) hc
      have := measure_step (Run.inv hs hr).1 st
      simp at this
      omega
    · refine ⟨0, s, .nil s, Decidable.byContradiction fun h => hc (Or.inl h), ?_⟩
      cases hk : s.kick
      · rfl
      · exact absurd (Or.inr hk) hc
  | succ m ih =>
    intro s hm hr
    by_cases hc : s.pc ≠ .wait ∨ s.kick = true
    · obtain ⟨s', st⟩ := C81_not_stuck (E := E) (kind := kind) hc
      have := measure_step (Run.inv hs hr).1 st
      simp at this
      obtain ⟨n, s'', hw, h1, h2⟩ := ih s' (by omega) (.worker hr st trivial)
      exact ⟨0 + 1 + n, s'', work_prepend (.useful (.nil s) st) hw, h1, h2⟩
    · refine ⟨0, s, .nil s, Decidable.byContradiction fun h => hc (Or.inl h), ?_⟩
      cases hk : s.kick
      · rfl
      · exact absurd (Or.inr hk) hc

/-! ### Where it fails -/

theorem Run.w {idle : Bool} (h : Reach E size kind s) (st : WStep E kind s idle s') : Reach E size kind s' := .worker h st trivial

theorem Run.d (h : Reach E size kind s) (st : DStep E size s s') : Reach E size kind s' := .driver h st trivial

/-- A demonstration: one chain is made available and kicked for, the driver goes to sleep, the worker wakes up and takes it. -/
theorem demo_taken (kind : Nat → Kind) (E : Bool) : ∃ s, Reach E 4 kind s ∧
    s = (({ Sys.init with avail := 1, old := 1, irq := .sleep, pc := .pops .poll false } : Sys).pop kind .poll) := by
  have h0 : Reach E 4 kind Sys.init := .init trivial
  have h1 := h0.d (.publish _ (by decide) (by decide))
  have h2 := h1.d (.kick _ (by decide))
  have h3 := h2.d (.arm _ rfl)
  have h4 := h3.d (.sleep _ rfl rfl)
  have h5 := h4.w (.wake _ rfl (by cases E <;> decide))
  exact ⟨_, h5.w (.pop _ .poll false rfl (by simp [Sys.init])), rfl⟩

/-- **C81** A malformed chain is returned without a signal: the driver sleeps, the worker sleeps, and the driver has not seen the chain. -/
theorem C81_false_bad (E : Bool) : ∃ s, Reach E 4 (fun _ => .bad) s ∧ WorkerAsleep s ∧ DriverAsleep s ∧ s.ring = [0] ∧ s.seen = 0 := by
  obtain ⟨s, h, hs⟩ := demo_taken (fun _ => .bad) E
  subst hs
  have h1 := h.w (.popEnd _ .poll true rfl rfl)
  have h2 := h1.w (.pollEnd _ .poll true rfl)
  have h3 := h2.w (.check _ .poll true rfl)
  have h4 := h3.w (.decide _ .poll true true rfl)
  have h5 := h4.w (.popEnd _ .poll false rfl rfl)
  have h6 := h5.w (.pollEnd _ .poll false rfl)
  have h7 := h6.w (.check _ .poll false rfl)
  have h8 := h7.w (.decide _ .poll false true rfl)
  cases E with
  | false =>
    have h9 := h8.w (.popEnd _ .last false rfl rfl)
    have h10 := h9.w (.pollEnd _ .last false rfl)
    have h11 := h10.w (.check _ .last false rfl)
    have h12 := h11.w (.decide _ .last false true rfl)
    exact ⟨_, h12, ⟨rfl, rfl, rfl⟩, ⟨rfl, rfl⟩, rfl, rfl⟩
  | true =>
    have h8' := h8.w (.enable _ rfl)
    have h9 := h8'.w (.popEnd _ .event false rfl rfl)
    have h10 := h9.w (.pollEnd _ .event false rfl)
    have h11 := h10.w (.check _ .event false rfl)
    have h12 := h11.w (.decide _ .event false true rfl)
    exact ⟨_, h12, ⟨rfl, rfl, rfl⟩, ⟨rfl, rfl⟩, rfl, rfl⟩

/-- **C81** Without the event index the worker may go to sleep with a request in the channel: one that was made available just before
the last look at the ring (whose kick is still to come). -/
theorem C81_false_idle : ∃ s, Reach false 4 (fun _ => .dev) s ∧ s.pc = .wait ∧ s.kick = false ∧ s.inflight = [0] := by
  have h0 : Reach false 4 (fun _ => .dev) Sys.init := .init trivial
  have h1 := h0.d (.extraKick _)
  have h2 := h1.w (.wake _ rfl rfl)
  have h3 := h2.w (.popEnd _ .poll false rfl rfl)
  have h4 := h3.w (.pollEnd _ .poll false rfl)
  have h5 := h4.w (.check _ .poll false rfl)
  have h6 := h5.w (.decide _ .poll false true rfl)
  have h7 := h6.d (.publish _ (by decide) (by decide))
  have h8 := h7.w (.pop _ .last false rfl (by decide))
  have h9 := h8.w (.popEnd _ .last true rfl rfl)
  have h10 := h9.w (.pollEnd _ .last true rfl)
  have h11 := h10.w (.check _ .last true rfl)
  have h12 := h11.w (.decide _ .last true true rfl)
  exact ⟨_, h12, rfl, rfl, rfl⟩

/-- One chain after the other, answered at once and looked at, while the worker keeps taking. -/
def busyAt (n : Nat) (k : Bool) : Sys :=
  { avail := n, next := n, ring := List.range n, availEvent := 0, usedEvent := 0, kick := k, call := false, pc := .pops .poll true,
    inflight := [], pending := true, added := n, old := n, seen := n, irq := .run }

theorem reach_busy (n : Nat) : ∃ k, Reach true 4 (fun _ => .now) (busyAt (n + 1) k) := by
  induction n with
  | zero =>
    have h0 : Reach true 4 (fun _ => .now) Sys.init := .init trivial
    have h1 := h0.d (.publish _ (by decide) (by decide))
    have h2 := h1.d (.kick _ (by decide))
    have h3 := h2.w (.wake _ rfl (by decide))
    have h4 := h3.w (.pop _ .poll false rfl (by decide))
    have h5 := h4.d (.take _ rfl (by decide))
    exact ⟨false, h5⟩
  | succ n ih =>
    obtain ⟨k, h⟩ := ih
    have h1 := h.d (.publish _ (by simp [busyAt]) (by simp [busyAt]))
    have h2 := h1.d (.kick _ (by simp [busyAt]))
    have h3 := h2.w (.pop _ .poll true rfl (by simp only [busyAt]; omega))
    have h4 := h3.d (.take _ rfl (by simp [busyAt, Sys.pop, Sys.addUsed]))
    refine ⟨k || needEvent 0 (n + 1 + 1) (n + 1), ?_⟩
    simpa [busyAt, Sys.pop, Sys.addUsed, List.range_succ] using h4

/-- A look at an empty ring and an idle channel that ends without a signal. -/
theorem quiet_round (ph : Phase) (b : Bool) (h : Reach true size kind s) (hpc : s.pc = .pops ph b) (hi : s.inflight = []) (hn : s.avail = s.next)
    (hp : s.pending = true) (hq : needEvent s.usedEvent s.ring.length (sub16 s.ring.length s.added) = false) :
    Reach true size kind { s with added := 0, pc := .decide ph b } := by
  have h1 := h.w (.popEnd s ph b hpc (congrArg (· % 65536) hn))
  have h2 := h1.w (.pollEnd _ ph b rfl)
  have h3 := h2.w (.check _ ph (b || !s.inflight.isEmpty) rfl)
  simpa [hp, hq, hi] using h3

/-- **C81** With the event index, 65536 chains answered in one go are too many: the count of returned chains (a `u16` of the
library) comes around to zero and the last of them is not signalled. -/
theorem C81_false_wrap : ∃ s, Reach true 4 (fun _ => .now) s ∧ WorkerAsleep s ∧ DriverAsleep s ∧ s.ring.length = 65536 ∧ s.seen = 65535 := by
  obtain ⟨n, hn⟩ : ∃ n, n + 1 = 65535 := ⟨65534, rfl⟩
  obtain ⟨k, h⟩ := reach_busy n
  have h1 := h.d (.arm _ rfl)
  have h2 := h1.d (.sleep _ rfl (by simp [busyAt]))
  have h3 := h2.d (.publish _ (by simp [busyAt]) (by simp [busyAt]))
  have h4 := h3.d (.kick _ (by simp [busyAt]))
  have h5 := h4.w (.pop _ .poll true rfl (by simp only [busyAt]; omega))
  have nd : needEvent 65535 65536 (sub16 65536 65536) = false := by decide
  have nd' : needEvent 65535 65536 (sub16 65536 0) = false := by decide
  -- one wake-up that ends without a signal
  have round : ∀ s : Sys, Reach true 4 (fun _ => .now) s → s.pc = .pops .poll false → s.inflight = [] → s.avail = s.next → s.pending = true →
      s.usedEvent = 65535 → s.ring.length = 65536 → s.added = 0 →
      Reach true 4 (fun _ => .now) { s with availEvent := s.next % 65536, pc := .wait, added := 0 } := by
    intro s h hpc hi hn hp hu hl ha
    have q := quiet_round .poll false h hpc hi hn hp (by rw [hu, hl, ha]; exact nd')
    have q1 := q.w (.decide _ .poll false true rfl)
    have q2 := q1.w (.enable _ rfl)
    have q3 := quiet_round .event false q2 rfl hi hn hp (by simp only; rw [hu, hl]; exact nd')
    exact q3.w (.decide _ .event false true rfl)
  have hu : (n + 1) % 65536 = 65535 := by omega
  have hl : (List.range (n + 1) ++ [n + 1]).length = 65536 := by simp; omega
  have h6 := quiet_round .poll true h5 rfl rfl rfl rfl (by
    show needEvent ((n + 1) % 65536) (List.range (n + 1) ++ [n + 1]).length (sub16 (List.range (n + 1) ++ [n + 1]).length (n + 1 + 1)) = false
    rw [hu, hl, show n + 1 + 1 = 65536 by omega]; exact nd)
  have h7 := h6.w (.decide _ .poll true true rfl)
  have h8 := round _ h7 rfl rfl rfl rfl hu hl rfl
  cases hk : (k || !true || needEvent 0 (n + 1 + 1) (n + 1)) with
  | false => exact ⟨_, h8, ⟨rfl, hk, rfl⟩, ⟨rfl, rfl⟩, hl, hn⟩
  | true =>
    have h9 := h8.w (.wake _ rfl hk)
    have h10 := round _ h9 rfl rfl rfl rfl hu hl rfl
    exact ⟨_, h10, ⟨rfl, rfl, rfl⟩, ⟨rfl, rfl⟩, hl, hn⟩

/-- A case of `C81_both_event_partial` and `C81_both_partial`: the driver goes to sleep with a chain in the ring, the worker hands it to the channel, answers and
signals, the driver looks at it and goes to sleep again. -/
theorem demo_both (E : Bool) : ∃ s, Reach E 4 (fun _ => .dev) s ∧ WorkerAsleep s ∧ DriverAsleep s ∧ s.avail = 1 ∧ s.seen = 1 := by
  obtain ⟨s, h, hs⟩ := demo_taken (fun _ => .dev) E
  subst hs
  have h1 := h.w (.popEnd _ .poll true rfl rfl)
  have h2 := h1.w (.complete _ .poll true 0 rfl (by decide))
  have h3 := h2.w (.pollEnd _ .poll true rfl)
  have h4 := h3.w (.check _ .poll true rfl)
  cases E with
  | false =>
    have h5 := h4.w (.sig _ .poll true rfl)
    have h6 := h5.d (.interrupt _ rfl)
    have h7 := h6.d (.take _ rfl (by decide))
    have h8 := h7.d (.arm _ rfl)
    have h9 := h8.d (.sleep _ rfl rfl)
    have h10 := h9.w (.decide _ .poll true true rfl)
    have h11 := h10.w (.popEnd _ .poll false rfl rfl)
    have h12 := h11.w (.pollEnd _ .poll false rfl)
    have h13 := h12.w (.check _ .poll false rfl)
    have h14 := h13.w (.decide _ .poll false true rfl)
    have h15 := h14.w (.popEnd _ .last false rfl rfl)
    have h16 := h15.w (.pollEnd _ .last false rfl)
    have h17 := h16.w (.check _ .last false rfl)
    have h18 := h17.w (.decide _ .last false true rfl)
    exact ⟨_, h18, ⟨rfl, rfl, rfl⟩, ⟨rfl, rfl⟩, rfl, rfl⟩
  | true =>
    have h5 := h4.w (.sig _ .poll true (by simp [Sys.pop, Sys.addUsed, Sys.init, needEvent, sub16]))
    have h6 := h5.d (.interrupt _ rfl)
    have h7 := h6.d (.take _ rfl (by decide))
    have h8 := h7.d (.arm _ rfl)
    have h9 := h8.d (.sleep _ rfl rfl)
    have h10 := h9.w (.decide _ .poll true true rfl)
    have h11 := h10.w (.popEnd _ .poll false rfl rfl)
    have h12 := h11.w (.pollEnd _ .poll false rfl)
    have h13 := h12.w (.check _ .poll false rfl)
    have h14 := h13.w (.decide _ .poll false true rfl)
    have h14' := h14.w (.enable _ rfl)
    have h15 := h14'.w (.popEnd _ .event false rfl rfl)
    have h16 := h15.w (.pollEnd _ .event false rfl)
    have h17 := h16.w (.check _ .event false rfl)
    have h18 := h17.w (.decide _ .event false true rfl)
    exact ⟨_, h18, ⟨rfl, rfl, rfl⟩, ⟨rfl, rfl⟩, rfl, rfl⟩

example : ∃ s : Sys, AllAnswered s ∧ s.seen = s.avail ∧ s.avail = 1 := by
  obtain ⟨s, h, hw, hd, ha, _⟩ := demo_both true
  obtain ⟨h1, h2⟩ := C81_both_event_partial (by omega) (fun _ => rfl) h hw hd
  exact ⟨s, h1, h2, ha⟩

example : ∃ s : Sys, AllAnswered s ∧ s.seen = s.avail ∧ s.avail = 1 := by
  obtain ⟨s, h, hw, hd, ha, _⟩ := demo_both false
  obtain ⟨h1, h2⟩ := C81_both_partial (by omega) (fun _ => by decide) h hw hd
  exact ⟨s, h1, h2, ha⟩

/-- A case of `C81_unseen_partial` with a chain left unseen (`C81_false_bad`), and one of `C81_unseen_event_partial`. -/
example : ∃ s : Sys, AllAnswered s ∧ s.ring.drop s.seen = [0] := by
  obtain ⟨s, h, hw, hd, h1, h2⟩ := C81_false_bad false
  exact ⟨s, (C81_unseen_partial (by omega) h hw hd).1, by rw [h1, h2]; rfl⟩

example : ∃ s : Sys, AllAnswered s ∧ s.avail = 1 := by
  obtain ⟨s, h, hw, hd, ha, hx⟩ := demo_both true
  have hr' : Run true 4 (fun _ => .dev) (fun s => s.added < 65536) s := by
    have hr := (Reach.small (by omega) (fun _ _ => rfl) h).1
    clear hw hd ha hx h
    induction hr with
    | init hp => exact .init (hp rfl)
    | worker r st hp ih => exact .worker ih st (hp rfl)
    | driver r st hp ih => exact .driver ih st (hp rfl)
  exact ⟨s, (C81_unseen_event_partial (by omega) hr' hw hd).1, ha⟩

/-! ### The kinds of chains -/

/-- **C81** What the three kinds of chains stand for in the model of the thread (`Model/Vhost`): a chain that cannot be parsed is returned
without a status byte and leaves the note to signal as it is; any other chain is either handed to the channel, or leaves a note to signal. -/
theorem C81_kinds (dev : Bytes) (v v' : Vhost.Vq) (head : Nat) (descs : List Vhost.Desc) (es : List Vhost.VEv)
    (h : Vhost.processChain dev v head descs = .ok (v', es)) :
    ((∃ e, Vhost.parse v.mem descs = .error e) ∧ es = [.returned v.popped head none] ∧ v'.pendingSignal = v.pendingSignal) ∨
    ((∃ r, Vhost.parse v.mem descs = .ok r) ∧ ((∃ id q, es = [.dev id q]) ∧ v'.pendingSignal = v.pendingSignal ∨
      (∀ id q, .dev id q ∉ es) ∧ v'.pendingSignal = true)) := by
  have comp : ∀ (w : Vhost.Vq) (uid hd st : Nat) (b : UInt8), (Vhost.complete w uid hd st b).1.pendingSignal = true ∧
      ∀ id q, Vhost.VEv.dev id q ∉ (Vhost.complete w uid hd st b).2 := by
    intro w uid hd st b
    unfold Vhost.complete
    simp only
    split <;> exact ⟨rfl, by simp⟩
  have slot : ∀ (w : Vhost.Vq) (len : Nat) (r : Vhost.Request) (c : Vhost.Chain), (Vhost.getSlot w len r c).1.pendingSignal = w.pendingSignal := by
    intro w len r c
    unfold Vhost.getSlot
    split <;> rfl
  unfold Vhost.processChain at h
  simp only at h
  split at h
  · rename_i e he
    simp only [Vhost.Res.ok.injEq, Vhost.completeBad, Prod.mk.injEq] at h
    obtain ⟨rfl, rfl⟩ := h
    exact Or.inl ⟨⟨e, he⟩, rfl, rfl⟩
  · rename_i r hr
    refine Or.inr ⟨⟨r, hr⟩, ?_⟩
    split at h
    · unfold Vhost.processRead at h
      simp only at h
      split at h
      · simp only [Vhost.Res.ok.injEq] at h
        have := comp { v with popped := v.popped + 1 } v.popped head r.status Vhost.S_IOERR
        rw [h] at this
        exact Or.inr ⟨this.2, this.1⟩
      · simp only [Vhost.Res.ok.injEq, Prod.mk.injEq] at h
        obtain ⟨rfl, rfl⟩ := h
        exact Or.inl ⟨⟨_, _, rfl⟩, slot ..⟩
    · unfold Vhost.processWrite at h
      simp only at h
      split at h
      · simp only [Vhost.Res.ok.injEq] at h
        have := comp { v with popped := v.popped + 1 } v.popped head r.status Vhost.S_IOERR
        rw [h] at this
        exact Or.inr ⟨this.2, this.1⟩
      · split at h
        · cases h
        · split at h
          · simp only [Vhost.Res.ok.injEq, Prod.mk.injEq] at h
            obtain ⟨rfl, rfl⟩ := h
            exact Or.inr ⟨(comp ..).2, (comp ..).1⟩
          · simp only [Vhost.Res.ok.injEq, Prod.mk.injEq] at h
            obtain ⟨rfl, rfl⟩ := h
            exact Or.inl ⟨⟨_, _, rfl⟩, slot ..⟩
    · unfold Vhost.processFlush at h
      simp only [Vhost.Res.ok.injEq, Prod.mk.injEq] at h
      obtain ⟨rfl, rfl⟩ := h
      exact Or.inl ⟨⟨_, _, rfl⟩, slot ..⟩
    · unfold Vhost.processGetId at h
      split at h
      · cases h
      · split at h <;> simp only [Vhost.Res.ok.injEq] at h <;>
          (have hc := congrArg Prod.fst h; have hd := congrArg Prod.snd h; simp only at hc hd; subst hc; subst hd
           exact Or.inr ⟨(comp ..).2, (comp ..).1⟩)
    · simp only [Vhost.Res.ok.injEq] at h
      have hc := congrArg Prod.fst h
      have hd := congrArg Prod.snd h
      simp only at hc hd
      subst hc; subst hd
      exact Or.inr ⟨(comp ..).2, (comp ..).1⟩

end Verif.Wake
