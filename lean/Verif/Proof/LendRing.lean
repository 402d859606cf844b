import Verif.Model.LendRing
import Verif.Proof.LendLayers
import Verif.Proof.Uring

/-! # Proofs about memory lent to the kernel: threads, and programs on io_uring channels -/

namespace Verif.Lend

/-! ## Threads -/

def renameMem (bn : Nat → Nat) : Option (Nat × Nat) → Option (Nat × Nat)
  | none => none
  | some (b, len) => some (bn b, len)

structure TInv (bn cn : Nat → Nat → Nat) (K : Nat → Ledger) (g : Ledger) : Prop where
  size : ∀ i b, g.size (bn i b) = (K i).size b
  lent : ∀ i c id, g.lent (cn i c) id = ((K i).lent c id).map (renameMem (bn i))
  own : ∀ c id m, g.lent c id = some m → ∃ i c', c = cn i c'

theorem TInv.quiet {bn cn : Nat → Nat → Nat} {K : Nat → Ledger} {g : Ledger} (h : TInv bn cn K g)
    (hb : ∀ i b j b', bn i b = bn j b' → i = j ∧ b = b') {i b : Nat} (hq : (K i).quiet b) : g.quiet (bn i b) := by
  intro c id len hl
  obtain ⟨j, c', rfl⟩ := h.own _ _ _ hl
  rw [h.lent] at hl
  cases hk : (K j).lent c' id with
  | none => rw [hk] at hl; cases hl
  | some m =>
    rw [hk] at hl
    cases m with
    | none => cases hl
    | some p =>
      obtain ⟨x, l⟩ := p
      simp only [Option.map_some, renameMem, Option.some.injEq, Prod.mk.injEq] at hl
      obtain ⟨rfl, rfl⟩ := hb _ _ _ _ hl.1
      exact hq c' id l hk

theorem TInv.step {bn cn : Nat → Nat → Nat} {K : Nat → Ledger} {g : Ledger} (h : TInv bn cn K g)
    (hb : ∀ i b j b', bn i b = bn j b' → i = j ∧ b = b') (hc : ∀ i c j c', cn i c = cn j c' → i = j ∧ c = c') (i : Nat) (e : Ev) :
    TInv bn cn (fun j => if j = i then (K i).next e else K j) (g.next (e.rename (bn i) (cn i))) := by
  have hb' : ∀ j b x, bn j b = bn i x ↔ j = i ∧ b = x := fun j b x => ⟨fun he => hb _ _ _ _ he, fun ⟨h1, h2⟩ => by rw [h1, h2]⟩
  have hc' : ∀ j c x, cn j c = cn i x ↔ j = i ∧ c = x := fun j c x => ⟨fun he => hc _ _ _ _ he, fun ⟨h1, h2⟩ => by rw [h1, h2]⟩
  cases e with
  | alloc b n =>
    refine ⟨fun j x => ?_, fun j c id => ?_, fun c id m hm => h.own c id m hm⟩
    · simp only [Ev.rename, Ledger.next, hb']
      by_cases hj : j = i
      · subst hj; simp only [true_and, if_true]; rw [h.size]
      · simp [hj, h.size]
    · simp only [Ev.rename, Ledger.next]
      by_cases hj : j = i
      · subst hj; simp [h.lent]
      · simp [hj, h.lent]
  | free b =>
    refine ⟨fun j x => ?_, fun j c id => ?_, fun c id m hm => h.own c id m hm⟩
    · simp only [Ev.rename, Ledger.next, hb']
      by_cases hj : j = i
      · subst hj; simp only [true_and, if_true]; rw [h.size]
      · simp [hj, h.size]
    · simp only [Ev.rename, Ledger.next]
      by_cases hj : j = i
      · subst hj; simp [h.lent]
      · simp [hj, h.lent]
  | touch b =>
    refine ⟨fun j x => ?_, fun j c id => ?_, fun c id m hm => h.own c id m hm⟩ <;> by_cases hj : j = i
    · subst hj; simp [Ev.rename, Ledger.next, h.size]
    · simp [Ev.rename, Ledger.next, hj, h.size]
    · subst hj; simp [Ev.rename, Ledger.next, h.lent]
    · simp [Ev.rename, Ledger.next, hj, h.lent]
  | kern c id =>
    refine ⟨fun j x => ?_, fun j c id => ?_, fun c id m hm => h.own c id m hm⟩ <;> by_cases hj : j = i
    · subst hj; simp [Ev.rename, Ledger.next, h.size]
    · simp [Ev.rename, Ledger.next, hj, h.size]
    · subst hj; simp [Ev.rename, Ledger.next, h.lent]
    · simp [Ev.rename, Ledger.next, hj, h.lent]
  | add c id w b len =>
    refine ⟨fun j x => ?_, fun j x y => ?_, fun x y m hm => ?_⟩
    · by_cases hj : j = i
      · subst hj; simp [Ev.rename, Ledger.next, h.size]
      · simp [Ev.rename, Ledger.next, hj, h.size]
    · simp only [Ev.rename, Ledger.next, hc']
      by_cases hj : j = i
      · subst hj
        simp only [true_and, if_true]
        by_cases hx : x = c ∧ y = id
        · simp [hx, renameMem]
        · simp [hx, h.lent]
      · simp [hj, h.lent]
    · simp only [Ev.rename, Ledger.next] at hm
      split at hm
      · rename_i hx; exact ⟨i, c, hx.1⟩
      · exact h.own _ _ _ hm
  | flush c id =>
    refine ⟨fun j x => ?_, fun j x y => ?_, fun x y m hm => ?_⟩
    · by_cases hj : j = i
      · subst hj; simp [Ev.rename, Ledger.next, h.size]
      · simp [Ev.rename, Ledger.next, hj, h.size]
    · simp only [Ev.rename, Ledger.next, hc']
      by_cases hj : j = i
      · subst hj
        simp only [true_and, if_true]
        by_cases hx : x = c ∧ y = id
        · simp [hx, renameMem]
        · simp [hx, h.lent]
      · simp [hj, h.lent]
    · simp only [Ev.rename, Ledger.next] at hm
      split at hm
      · rename_i hx; exact ⟨i, c, hx.1⟩
      · exact h.own _ _ _ hm
  | poll c rs =>
    refine ⟨fun j x => ?_, fun j x y => ?_, fun x y m hm => ?_⟩
    · by_cases hj : j = i
      · subst hj; simp [Ev.rename, Ledger.next, h.size]
      · simp [Ev.rename, Ledger.next, hj, h.size]
    · simp only [Ev.rename, Ledger.next, hc']
      by_cases hj : j = i
      · subst hj
        simp only [true_and, if_true]
        by_cases hx : x = c ∧ y ∈ rs.map Prod.fst
        · rw [if_pos hx, if_pos hx]; rfl
        · rw [if_neg hx, if_neg hx]; exact h.lent _ _ _
      · simp [hj, h.lent]
    · exact h.own _ _ _ (poll_some hm)

theorem TInv.allows {bn cn : Nat → Nat → Nat} {K : Nat → Ledger} {g : Ledger} (h : TInv bn cn K g)
    (hb : ∀ i b j b', bn i b = bn j b' → i = j ∧ b = b') {i : Nat} {e : Ev} (ha : (K i).allows e) :
    g.allows (e.rename (bn i) (cn i)) := by
  cases e with
  | alloc b n => exact (h.size i b).trans ha
  | free b => exact ⟨by rw [h.size]; exact ha.1, h.quiet hb ha.2⟩
  | touch b => exact ⟨by rw [h.size]; exact ha.1, h.quiet hb ha.2⟩
  | kern c id => trivial
  | add c id w b len =>
    refine ⟨by rw [h.size]; exact ha.1, h.quiet hb ha.2.1, ?_⟩
    rw [h.lent, ha.2.2]; rfl
  | flush c id =>
    have : (K i).lent c id = none := ha
    show g.lent (cn i c) id = none
    rw [h.lent, this]; rfl
  | poll c rs => trivial

theorem TInv.law {bn cn : Nat → Nat → Nat} {K : Nat → Ledger} {g : Ledger} (h : TInv bn cn K g) {i : Nat} {e : Ev}
    (hl : g.law (e.rename (bn i) (cn i))) : (K i).law e := by
  cases e with
  | poll c rs =>
    refine ⟨hl.1, fun r hr he => ?_⟩
    have := hl.2 r hr
    rw [h.lent, he] at this
    exact this rfl
  | _ => trivial

/-- What thread `i` does. -/
def own (i : Nat) (l : List (Nat × Ev)) : List Ev := (l.filter fun p => p.1 = i).map Prod.snd

theorem own_snoc (i : Nat) (l : List (Nat × Ev)) (p : Nat × Ev) : own i (l ++ [p]) = if p.1 = i then own i l ++ [p.2] else own i l := by
  unfold own
  rw [List.filter_append, List.map_append]
  by_cases h : p.1 = i <;> simp [h]

theorem threads_inv {bn cn : Nat → Nat → Nat} {P : Nat → List Ev → Prop} (hP : ∀ i, Safe (P i))
    (hb : ∀ i b j b', bn i b = bn j b' → i = j ∧ b = b') (hc : ∀ i c j c', cn i c = cn j c' → i = j ∧ c = c') (l : List (Nat × Ev)) :
    ∀ n, l.length = n → (∀ i, P i (own i l)) → Law .empty (l.map fun p => p.2.rename (bn p.1) (cn p.1)) →
      Fine .empty (l.map fun p => p.2.rename (bn p.1) (cn p.1)) ∧
      TInv bn cn (fun i => ledger (own i l)) (ledger (l.map fun p => p.2.rename (bn p.1) (cn p.1))) ∧ ∀ i, Law .empty (own i l) := by
  intro n
  induction n generalizing l with
  | zero =>
    intro hn
    rw [List.length_eq_zero_iff.mp hn]
    intro _ _
    exact ⟨trivial, ⟨fun _ _ => rfl, fun _ _ _ => rfl, fun _ _ _ hm => (by cases hm)⟩, fun _ => trivial⟩
  | succ n ih =>
    intro hn hp hl
    rcases List.eq_nil_or_concat l with rfl | ⟨l', p, rfl⟩
    · cases hn
    rw [List.concat_eq_append] at *
    obtain ⟨i, e⟩ := p
    rw [List.map_append, law_append] at hl
    have hp' : ∀ j, P j (own j l') := by
      intro j
      have := hp j
      rw [own_snoc] at this
      split at this
      · exact (hP j).cut _ _ this
      · exact this
    obtain ⟨f1, f2, f3⟩ := ih l' (by simpa using hn) hp' hl.1
    have hlaw := f2.law (i := i) (e := e) hl.2.1
    have hown : ∀ j, own j (l' ++ [(i, e)]) = if i = j then own j l' ++ [e] else own j l' := fun j => own_snoc j l' (i, e)
    have hlaws : ∀ j, Law .empty (own j (l' ++ [(i, e)])) := by
      intro j
      rw [hown]
      split
      · rename_i hij; subst hij
        rw [law_append]; exact ⟨f3 i, hlaw, trivial⟩
      · exact f3 j
    have hfine := (keeps_iff _).mp ((hP i).keeps _ (hp i) ((answers_iff _).mpr (hlaws i)))
    rw [hown, if_pos rfl, fine_append] at hfine
    have hal : (ledger (own i l')).allows e := hfine.2.1
    refine ⟨?_, ?_, hlaws⟩
    · rw [List.map_append, fine_append]
      exact ⟨f1, f2.allows hb hal, trivial⟩
    · have := f2.step hb hc i e
      have e1 : ledger ((l' ++ [(i, e)]).map fun p => p.2.rename (bn p.1) (cn p.1)) =
          (ledger (l'.map fun p => p.2.rename (bn p.1) (cn p.1))).next (e.rename (bn i) (cn i)) := by
        rw [List.map_append, ledger_eq, run_append]; rfl
      have e2 : (fun j => ledger (own j (l' ++ [(i, e)]))) = fun j => if j = i then (ledger (own i l')).next e else ledger (own j l') := by
        funext j
        rw [hown]
        by_cases hj : j = i
        · subst hj; simp [ledger_eq]
        · simp [hj, Ne.symm hj]
      rw [e1, e2]; exact this

theorem threads_safe {bn cn : Nat → Nat → Nat} {P : Nat → List Ev → Prop} (hP : ∀ i, Safe (P i))
    (hb : ∀ i b j b', bn i b = bn j b' → i = j ∧ b = b') (hc : ∀ i c j c', cn i c = cn j c' → i = j ∧ c = c') :
    Safe (Threads bn cn P) where
  cut := by
    rintro a b ⟨l, h1, h2⟩
    refine ⟨l.take a.length, fun i => ?_, ?_⟩
    · have : own i l = own i (l.take a.length) ++ own i (l.drop a.length) := by
        unfold own; rw [← List.map_append, ← List.filter_append, List.take_append_drop]
      have h := h1 i
      rw [show (l.filter fun p => p.1 = i).map Prod.snd = own i l from rfl, this] at h
      exact (hP i).cut _ _ h
    · rw [List.map_take, ← h2]; simp
  keeps := by
    rintro tr ⟨l, h1, rfl⟩ ha
    exact (keeps_iff _).mpr (threads_inv hP hb hc l _ rfl h1 ((answers_iff _).mp ha)).1

/-! ## Programs on io_uring channels -/

section
open Verif.Disk Verif.Uring

theorem run_filter (k : Ledger) (tr : List Ev) : run k (tr.filter Ev.ofProgram) = run k tr := by
  induction tr generalizing k with
  | nil => rfl
  | cons e tr ih =>
    cases e <;> simp [List.filter_cons, Ev.ofProgram, ih]
    rfl

theorem fine_filter (k : Ledger) (tr : List Ev) : Fine k (tr.filter Ev.ofProgram) ↔ Fine k tr := by
  induction tr generalizing k with
  | nil => rfl
  | cons e tr ih =>
    cases e <;> simp [List.filter_cons, Ev.ofProgram, ih]
    exact ⟨fun h => ⟨trivial, h⟩, fun h => h.2⟩

theorem law_filter (k : Ledger) (tr : List Ev) : Law k (tr.filter Ev.ofProgram) ↔ Law k tr := by
  induction tr generalizing k with
  | nil => rfl
  | cons e tr ih =>
    cases e <;> simp [List.filter_cons, Ev.ofProgram, ih]
    exact ⟨fun h => ⟨trivial, h⟩, fun h => h.2⟩

variable {D : Type} {cap : Nat} {sync whole : Bool} {v : Nat → D}

structure JInv (s : Sys D) (tr : List Ev) : Prop where
  held : Held s
  lent : ∀ c id, id ∈ (s.ch c).ids ↔ (ledger tr).lent c id ≠ none
  answers : Law .empty tr
  keeps : Fine .empty tr
  kernel : Kernel tr

theorem kernel_snoc {tr : List Ev} {e : Ev} (h : Kernel tr) (he : ∀ c id, e = .kern c id → (ledger tr).lent c id ≠ none) :
    Kernel (tr ++ [e]) := by
  intro pre c id post hp
  rcases List.eq_nil_or_concat post with rfl | ⟨post', x, rfl⟩
  · obtain ⟨h1, h2⟩ := List.append_inj' hp (by simp)
    simp only [List.cons.injEq, and_true] at h2
    rw [← h1]; exact he c id h2
  · rw [List.concat_eq_append] at hp
    have : tr ++ [e] = (pre ++ .kern c id :: post') ++ [x] := by simpa using hp
    obtain ⟨h1, -⟩ := List.append_inj' this rfl
    exact h pre c id post' h1

theorem ring_inv {P : List Ev → Prop} (hP : Safe P) {s : Sys D} {tr : List Ev} (h : OnRing cap sync whole v P s tr) : JInv s tr := by
  -- a program's event that is not a poll is allowed
  have ok : ∀ (tr : List Ev) (e : Ev), e.isPoll = false → Law .empty tr → P (tr.filter Ev.ofProgram ++ [e]) → (ledger tr).allows e := by
    intro tr e he hl hp
    have h1 : Law .empty (tr.filter Ev.ofProgram ++ [e]) := by
      rw [law_append, law_filter]; exact ⟨hl, law_of_noPolls (by simpa using he)⟩
    have h2 := (keeps_iff _).mp (hP.keeps _ hp ((answers_iff _).mpr h1))
    rw [fine_append, run_filter] at h2
    exact h2.2.1
  have lsnoc : ∀ (tr : List Ev) (e : Ev), ledger (tr ++ [e]) = (ledger tr).next e := fun tr e => by
    rw [ledger_eq, run_append]; rfl
  have notK : ∀ (e : Ev), e.ofProgram = true → ∀ (tr : List Ev) c id, e = .kern c id → (ledger tr).lent c id ≠ none := by
    intro e he tr c id h; rw [h] at he; cases he
  have plain : ∀ (s : Sys D) (tr : List Ev) (e : Ev), JInv s tr → e.isPoll = false → e.ofProgram = true → (ledger tr).allows e →
      ((ledger tr).next e).lent = (ledger tr).lent → JInv s (tr ++ [e]) := by
    intro s tr e i h1 h2 ha hl
    refine ⟨i.held, fun c id => by rw [lsnoc, hl]; exact i.lent c id, ?_, ?_, kernel_snoc i.kernel (notK e h2 tr)⟩
    · rw [law_append]; exact ⟨i.answers, law_of_noPolls (by simpa using h1)⟩
    · rw [fine_append]; exact ⟨i.keeps, ha, trivial⟩
  have same : ∀ (s s' : Sys D) (tr : List Ev), JInv s tr → Held s' → (∀ c, (s'.ch c).ids.Perm (s.ch c).ids) → JInv s' tr := by
    intro s s' tr i hh hp
    exact ⟨hh, fun c id => by rw [(hp c).mem_iff]; exact i.lent c id, i.answers, i.keeps, i.kernel⟩
  have adds : ∀ (s : Sys D) (tr : List Ev) (e : Ev) (c id : Nat) (r : Req D) (m : Option (Nat × Nat)), JInv s tr → e.isPoll = false →
      e.ofProgram = true → (ledger tr).allows e → (ledger tr).lent c id = none →
      ((ledger tr).next e).lent = (fun c' i => if c' = c ∧ i = id then some m else (ledger tr).lent c' i) →
      JInv { s with ch := upd s.ch c ((s.ch c).add cap sync id r) } (tr ++ [e]) := by
    intro s tr e c id r m i h1 h2 ha hn hl
    have hout : ¬(s.ch c).outstanding id := by
      rw [← Chan.mem_ids, i.lent]; simp [hn]
    refine ⟨i.held.step (Step.add (cap := cap) (sync := sync) (whole := whole) s c id r hout), fun c' id' => ?_, ?_, ?_,
      kernel_snoc i.kernel (notK e h2 tr)⟩
    · rw [lsnoc, hl]
      refine upd_case (P := fun ch => id' ∈ Chan.ids ch ↔ _) (fun hc => ?_) fun hc => ?_
      · subst hc
        rw [(add_ids _ _ _).mem_iff, List.mem_cons, i.lent]
        by_cases hi : id' = id <;> simp [hi]
      · rw [i.lent]; simp [hc]
    · rw [law_append]; exact ⟨i.answers, law_of_noPolls (by simpa using h1)⟩
    · rw [fine_append]; exact ⟨i.keeps, ha, trivial⟩
  induction h with
  | start =>
    exact ⟨Held.fresh, fun c id => by simp [Sys.fresh, Chan.new, Chan.ids, ledger, Ledger.empty], trivial, trivial,
      fun pre c id post h => by cases pre <;> cases h⟩
  | alloc b n h hp i => exact plain _ _ _ i rfl rfl (ok _ _ rfl i.answers hp) rfl
  | free b h hp i => exact plain _ _ _ i rfl rfl (ok _ _ rfl i.answers hp) rfl
  | touch b h hp i => exact plain _ _ _ i rfl rfl (ok _ _ rfl i.answers hp) rfl
  | add c id b w r h hk hp i =>
    have ha := ok _ _ rfl i.answers hp
    exact adds _ _ _ c id r (some (b, reqLen r)) i rfl rfl ha ha.2.2 rfl
  | flush c id h hp i =>
    have ha := ok _ _ rfl i.answers hp
    exact adds _ _ _ c id .flush none i rfl rfl ha ha rfl
  | submit c n h st i =>
    refine same _ _ _ i (i.held.step st) fun c' => ?_
    cases st with
    | idle => exact List.Perm.refl _
    | submit =>
      refine upd_case (P := fun ch => (Chan.ids ch).Perm _) (fun hc => ?_) fun _ => List.Perm.refl _
      subst hc
      exact take_ids _ _
  | submitErr c h st i =>
    refine same _ _ _ i (i.held.step st) fun c' => ?_
    cases st with
    | submitErr =>
      refine upd_case (P := fun ch => (Chan.ids ch).Perm _) (fun hc => ?_) fun _ => List.Perm.refl _
      subst hc
      exact List.Perm.refl _
  | kern c id x h ho i =>
    rename_i s tr
    have hl : (ledger tr).lent c id ≠ none := by
      rw [← i.lent, Chan.mem_ids]
      exact .inr (.inl ((i.held.kern c id).mpr ho))
    refine ⟨i.held.step (Step.exec (cap := cap) (sync := sync) (whole := whole) s (c, id) x), fun c' id' => ?_, ?_, ?_, ?_⟩
    · rw [lsnoc]; exact i.lent c' id'
    · rw [law_append]; exact ⟨i.answers, trivial, trivial⟩
    · rw [fine_append]; exact ⟨i.keeps, trivial, trivial⟩
    · exact kernel_snoc i.kernel fun c' id' he => by cases he; exact hl
  | done c id res h st i =>
    refine same _ _ _ i (i.held.step st) fun c' => ?_
    cases st with
    | done =>
      refine upd_case (P := fun ch => (Chan.ids ch).Perm _) (fun hc => ?_) fun _ => List.Perm.refl _
      subst hc
      exact post_ids _ _ _ _ ((i.held.kern _ _).mpr (by rename_i ho; rw [ho]; simp))
  | poll c rs h hr hp i =>
    rename_i s tr
    have hids : rs.map Prod.fst = (s.ch c).finished.map Prod.fst ++ (s.ch c).cq.map Prod.fst := by
      rw [hr]; simp [Chan.poll, Uring.report, Function.comp_def]
    have hn := i.held.nodup c
    have hperm : (s.ch c).ids.Perm (((s.ch c).sq.map Prod.fst ++ (s.ch c).kern) ++ rs.map Prod.fst) := by
      rw [hids]
      simp only [Chan.ids, ← List.append_assoc]
      rw [List.append_assoc ((s.ch c).sq.map Prod.fst ++ (s.ch c).kern), List.append_assoc ((s.ch c).sq.map Prod.fst ++ (s.ch c).kern)]
      exact List.Perm.append_left _ List.perm_append_comm
    rw [hperm.nodup_iff, List.nodup_append] at hn
    have hlaw : (ledger tr).law (.poll c rs) := by
      refine ⟨hn.2.1, fun r hr' => ?_⟩
      rw [← i.lent, hperm.mem_iff, List.mem_append]
      exact .inr (List.mem_map_of_mem hr')
    refine ⟨i.held.step (Step.poll (cap := cap) (sync := sync) (whole := whole) s c), fun c' id' => ?_, ?_, ?_,
      kernel_snoc i.kernel (notK _ rfl tr)⟩
    · rw [lsnoc]
      simp only [Ledger.next]
      refine upd_case (P := fun ch => id' ∈ Chan.ids ch ↔ _) (fun hc => ?_) fun hc => ?_
      · subst hc
        have h1 : (s.ch c').poll.1.ids = (s.ch c').sq.map Prod.fst ++ (s.ch c').kern := by simp [Chan.poll, Chan.ids]
        rw [h1]
        have h2 := i.lent c' id'
        rw [hperm.mem_iff, List.mem_append (t := rs.map Prod.fst)] at h2
        by_cases hm : id' ∈ rs.map Prod.fst
        · rw [if_pos ⟨rfl, hm⟩]
          simp only [ne_eq, not_true_eq_false, iff_false]
          exact fun hx => hn.2.2 _ hx _ hm rfl
        · rw [if_neg fun h => hm h.2, ← h2]
          simp [hm]
      · rw [if_neg fun h => hc h.1]; exact i.lent c' id'
    · rw [law_append]; exact ⟨i.answers, hlaw, trivial⟩
    · rw [fine_append]; exact ⟨i.keeps, trivial, trivial⟩

end

/-! ## What the kernel finds -/

theorem ledger_snoc (tr : List Ev) (e : Ev) : ledger (tr ++ [e]) = (ledger tr).next e := by
  rw [ledger_eq, run_append]; rfl

theorem snoc_ind {α : Type} {P : List α → Prop} (h0 : P []) (h1 : ∀ l a, P l → P (l ++ [a])) (l : List α) : P l := by
  have : ∀ n (l : List α), l.length = n → P l := by
    intro n
    induction n with
    | zero => intro l hl; rw [List.length_eq_zero_iff.mp hl]; exact h0
    | succ n ih =>
      intro l hl
      rcases List.eq_nil_or_concat l with rfl | ⟨l', a, rfl⟩
      · exact h0
      · rw [List.concat_eq_append] at *
        exact h1 l' a (ih l' (by simpa using hl))
  exact this _ l rfl

/-- Memory that is allocated was allocated, and has not been freed since. -/
theorem size_since (tr : List Ev) (b n : Nat) (h : (ledger tr).size b = some n) :
    ∃ p0 p1, tr = p0 ++ .alloc b n :: p1 ∧ .free b ∉ p1 := by
  induction tr using snoc_ind with
  | h0 => cases h
  | h1 tr e ih =>
    rw [ledger_snoc] at h
    have old : (ledger tr).size b = some n → e ≠ .free b → ∃ p0 p1, tr ++ [e] = p0 ++ .alloc b n :: p1 ∧ .free b ∉ p1 := by
      intro h he
      obtain ⟨p0, p1, rfl, h1⟩ := ih h
      refine ⟨p0, p1 ++ [e], by simp, ?_⟩
      rw [List.mem_append, List.mem_singleton]
      rintro (h2 | h2)
      · exact h1 h2
      · exact he h2.symm
    cases e with
    | alloc b' n' =>
      simp only [Ledger.next] at h
      split at h
      · rename_i hb; cases h; subst hb; exact ⟨tr, [], rfl, by simp⟩
      · exact old h (by simp)
    | free b' =>
      simp only [Ledger.next] at h
      split at h
      · cases h
      · rename_i hb; exact old h (by simpa using Ne.symm hb)
    | _ => exact old h (by simp)

/-- Memory that is lent was lent by a request, and the program has not used it since. -/
theorem lent_since (tr : List Ev) (hk : Keeps tr) (c id b len : Nat) (h : (ledger tr).lent c id = some (some (b, len))) :
    ∃ p0 w p1, tr = p0 ++ .add c id w b len :: p1 ∧ (∀ e ∈ p1, ¬e.uses b) ∧ ∀ rs, .poll c rs ∈ p1 → id ∉ rs.map Prod.fst := by
  induction tr using snoc_ind with
  | h0 => cases h
  | h1 tr e ih =>
    rw [ledger_snoc] at h
    have hk' := keeps_prefix hk
    have hal : (ledger tr).allows e := hk tr e [] rfl
    have hsound := sound_of_keeps hk'
    have old : (ledger tr).lent c id = some (some (b, len)) → (∀ rs, e = .poll c rs → id ∉ rs.map Prod.fst) →
        ∃ p0 w p1, tr ++ [e] = p0 ++ .add c id w b len :: p1 ∧ (∀ e ∈ p1, ¬e.uses b) ∧ ∀ rs, .poll c rs ∈ p1 → id ∉ rs.map Prod.fst := by
      intro h' hp
      obtain ⟨p0, w, p1, rfl, h1, h2⟩ := ih hk' h'
      refine ⟨p0, w, p1 ++ [e], by simp, fun x hx => ?_, fun rs hr => ?_⟩
      · rw [List.mem_append, List.mem_singleton] at hx
        rcases hx with hx | rfl
        · exact h1 x hx
        · intro hu
          obtain ⟨n, hn, -⟩ := hsound.size c id b len h'
          cases x with
          | alloc x n' => cases hu; rw [show (ledger _).size b = none from hal] at hn; cases hn
          | free x => cases hu; exact hal.2 _ _ _ h'
          | touch x => cases hu; exact hal.2 _ _ _ h'
          | add c' i' w' x l' => cases hu; exact hal.2.1 _ _ _ h'
          | _ => exact hu
      · rw [List.mem_append, List.mem_singleton] at hr
        rcases hr with hr | hr
        · exact h2 rs hr
        · exact hp rs hr.symm
    cases e with
    | add c' id' w b' len' =>
      simp only [Ledger.next] at h
      split at h
      · rename_i hc
        obtain ⟨rfl, rfl⟩ := hc
        cases h
        exact ⟨tr, w, [], rfl, by simp, by simp⟩
      · exact old h (by simp)
    | flush c' id' =>
      simp only [Ledger.next] at h
      split at h
      · cases h
      · exact old h (by simp)
    | poll c' rs =>
      simp only [Ledger.next] at h
      split at h
      · cases h
      · rename_i hc
        refine old h fun rs' he hm => ?_
        cases he
        exact hc ⟨rfl, hm⟩
    | _ => exact old h (by simp)

theorem flush_since (tr : List Ev) (c id : Nat) (h : (ledger tr).lent c id = some none) : .flush c id ∈ tr := by
  induction tr using snoc_ind with
  | h0 => cases h
  | h1 tr e ih =>
    rw [ledger_snoc] at h
    have old : (ledger tr).lent c id = some none → .flush c id ∈ tr ++ [e] := fun h => by simp [ih h]
    cases e with
    | add c' id' w b' len' =>
      simp only [Ledger.next] at h
      split at h
      · cases h
      · exact old h
    | flush c' id' =>
      simp only [Ledger.next] at h
      split at h
      · rename_i hc; simp [hc.1, hc.2]
      · exact old h
    | poll c' rs => exact old (poll_some h)
    | _ => exact old h

end Verif.Lend
