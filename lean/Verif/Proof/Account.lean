import Verif.Proof.FrontSetup
import Verif.Props.Tracker
import Verif.Props.Ublk
import Verif.Model.Account
import Verif.Spec.Account

/-! # The tracker and the requests in flight -/

set_option maxRecDepth 8000

namespace Verif.Vhost
open Verif Verif.Metadata Verif.Disk Verif.Tracker

/-- The call that announces a request. -/
def callOf (id : Nat) : DevReq → Call
  | .read s c => .read id s c
  | .write s c _ => .write id s c
  | .flush => .flush id

theorem describe_callOf (id : Nat) (q : DevReq) : describe (callOf id q) = some (seen q) := by cases q <;> rfl

theorem current_callOf (cs : List Call) (id : Nat) (q : DevReq) (i : Nat) :
    (current (cs ++ [callOf id q]) i).bind describe = if id = i then some (seen q) else (current cs i).bind describe := by
  rw [current_append]
  cases q <;> simp only [callOf] <;> by_cases h : id = i <;> simp only [h, if_true, if_false] <;> rfl

theorem current_clear (cs : List Call) (id i : Nat) :
    (current (cs ++ [.clear id]) i).bind describe = if id = i then none else (current cs i).bind describe := by
  rw [current_append]
  simp only
  by_cases h : id = i <;> simp only [h, if_true, if_false] <;> rfl

/-! ## vhost -/

theorem CStep.step {dev : Bytes} {v v' : Vq} {es : List VEv} {cs : List Call} (h : CStep dev v es cs v') : Step dev v es v' := by
  cases h with
  | guest bytes => exact .guest v bytes
  | pop _ head descs es1 hlen hc => exact .pop v v' head descs es1 hlen hc
  | poll _ id q data success es hi hf hp => exact .poll v v' id q data success _ hi hf hp
  | notify => exact .notify v

theorem CRun.run {dev : Bytes} {v v' : Vq} {es : List VEv} {cs : List Call} (h : CRun dev v es cs v') : Run dev v es v' := by
  induction h with
  | nil => exact .nil _
  | snoc _ hs ih => exact .snoc ih hs.step

/-- What a step leaves of a run without the calls: the calls can always be added. -/
theorem Run.calls {dev : Bytes} {v v' : Vq} {es : List VEv} (h : Run dev v es v') : ∃ cs, CRun dev v es cs v' := by
  induction h with
  | nil => exact ⟨_, .nil _⟩
  | snoc _ hs ih =>
    obtain ⟨cs, hc⟩ := ih
    cases hs with
    | guest bytes => exact ⟨_, .snoc hc (.guest _ bytes)⟩
    | pop _ head descs es1 hlen hc' => exact ⟨_, .snoc hc (.pop _ _ head descs es1 hlen hc')⟩
    | poll _ id q data success _ hi hf hp => exact ⟨_, .snoc hc (.poll _ _ id q data success _ hi hf hp)⟩
    | notify => exact ⟨_, .snoc hc (.notify _)⟩

/-- The calls made for a chain follow what happens to it. -/
theorem chain_calls {dev : Bytes} {v v' : Vq} {head : Nat} {descs : List Desc} {es : List VEv}
    (h : processChain dev v head descs = .ok (v', es)) (hs : Small v) :
    (∃ id q, es = [.dev id q] ∧ chainCalls v head descs = [callOf id q]) ∨
    ((∃ st, es = [.returned v.popped head st]) ∧ v'.inflight = v.inflight ∧
      (chainCalls v head descs = [] ∨ ∃ id, held v id = none ∧ chainCalls v head descs = [.clear id])) := by
  obtain ⟨_, _, _, he⟩ := chain_spec h hs
  have ret : ∀ {w : Vq} {st : Nat} {b : UInt8}, complete w v.popped head st b = (v', es) → ¬∃ id q, es = [VEv.dev id q] := by
    rintro w st b he ⟨id, q, rfl⟩
    unfold complete at he
    simp only at he
    split at he <;> simp at he
  have fin : (¬∃ id q, es = [VEv.dev id q]) → (∃ st, es = [.returned v.popped head st]) ∧ v'.inflight = v.inflight := by
    intro hn
    cases he with
    | bad _ hi _ _ => exact ⟨⟨_, rfl⟩, hi⟩
    | done st _ hi _ => exact ⟨⟨_, rfl⟩, hi⟩
    | hold r id q => exact absurd ⟨id, q, rfl⟩ hn
  unfold processChain at h
  unfold chainCalls
  simp only at h ⊢
  cases hp : parse v.mem descs with
  | error e =>
    rw [hp] at h
    simp only [completeBad, Res.ok.injEq, Prod.mk.injEq] at h
    obtain ⟨rfl, rfl⟩ := h
    exact Or.inr ⟨⟨_, rfl⟩, rfl, Or.inl rfl⟩
  | ok r =>
    rw [hp] at h
    simp only at h ⊢
    cases ht : r.ty with
    | «in» =>
      rw [ht] at h
      simp only [processRead] at h ⊢
      by_cases hl : requestLen r % 512 ≠ 0
      · rw [if_pos hl] at h ⊢
        simp only [Res.ok.injEq] at h
        obtain ⟨a, b⟩ := fin (ret h)
        exact Or.inr ⟨a, b, Or.inl rfl⟩
      · rw [if_neg hl] at h ⊢
        simp only [Res.ok.injEq, Prod.mk.injEq] at h
        exact Or.inl ⟨_, _, h.2.symm, rfl⟩
    | out =>
      rw [ht] at h
      simp only [processWrite] at h ⊢
      by_cases hl : requestLen r % 512 ≠ 0
      · rw [if_pos hl] at h ⊢
        simp only [Res.ok.injEq] at h
        obtain ⟨a, b⟩ := fin (ret h)
        exact Or.inr ⟨a, b, Or.inl rfl⟩
      · rw [if_neg hl] at h ⊢
        cases hg : getSlot { v with popped := v.popped + 1 } (requestLen r) r ⟨v.popped, head, descs⟩ with
        | mk v1 id =>
          simp only [hg] at h ⊢
          cases hga : gather v1.mem r.data 0 ((v1.slots[id]?.map Slot.buf).getD []) false with
          | panic => rw [hga] at h; cases h
          | ok p =>
            obtain ⟨buf, failed⟩ := p
            rw [hga] at h
            simp only at h ⊢
            cases failed with
            | true =>
              simp only [if_true, Res.ok.injEq, Prod.mk.injEq] at h ⊢
              have hn : ¬∃ id q, es = [VEv.dev id q] := by
                rintro ⟨i, q, rfl⟩
                have := h.2
                unfold complete at this
                simp only at this
                split at this <;> simp at this
              obtain ⟨a, b⟩ := fin hn
              obtain ⟨_, h1, _⟩ := getSlot_spec hg (show Small { v with popped := v.popped + 1 } from hs) (Nat.mod_lt _ (by decide))
              exact Or.inr ⟨a, b, Or.inr ⟨id, h1, rfl⟩⟩
            | false =>
              simp only [Bool.false_eq_true, if_false, Res.ok.injEq, Prod.mk.injEq] at h ⊢
              exact Or.inl ⟨_, _, h.2.symm, rfl⟩
    | other =>
      rw [ht] at h
      simp only [Res.ok.injEq] at h ⊢
      obtain ⟨a, b⟩ := fin (ret h)
      exact Or.inr ⟨a, b, Or.inl trivial⟩
    | flush =>
      rw [ht] at h
      simp only [processFlush, Res.ok.injEq, Prod.mk.injEq] at h ⊢
      exact Or.inl ⟨_, _, h.2.symm, rfl⟩
    | getId =>
      rw [ht] at h
      simp only [processGetId] at h ⊢
      cases hd : r.data with
      | nil => rw [hd] at h; cases h
      | cons p _ =>
        obtain ⟨a, l⟩ := p
        rw [hd] at h
        simp only at h
        have : ¬∃ id q, es = [VEv.dev id q] := by
          split at h <;> exact ret (Res.ok.inj h)
        obtain ⟨a, b⟩ := fin this
        exact Or.inr ⟨a, b, Or.inl trivial⟩

/-- What holds after every run with the calls. -/
structure CInv (v : Vq) (es : List VEv) (cs : List Call) : Prop where
  inv : Inv v es
  shown : ∀ i, (current cs i).bind describe = (v.inflight i).map seen
  mem : ∀ u q, (u, q) ∈ unanswered es ↔ ∃ i s, held v i = some s ∧ s.uid = u ∧ v.inflight i = some q
  nodup : ((unanswered es).map Prod.fst).Nodup

theorem unanswered_hold (es : List VEv) (u h id : Nat) (ds : List Desc) (q : DevReq) :
    unanswered (es ++ [.popped u h ds, .dev id q]) = unanswered es ++ [(u, q)] := by
  simp [unanswered, follow]

theorem unanswered_pop (es : List VEv) (u h : Nat) (ds : List Desc) (st : Option UInt8) :
    unanswered (es ++ [.popped u h ds, .returned u h st]) = (unanswered es).filter fun p => decide (p.1 ≠ u) := by
  simp [unanswered, follow]

theorem unanswered_returned (es : List VEv) (u h : Nat) (st : Option UInt8) :
    unanswered (es ++ [.returned u h st]) = (unanswered es).filter fun p => decide (p.1 ≠ u) := by
  simp [unanswered, follow]

theorem filter_fresh {l : List (Nat × DevReq)} {u : Nat} (h : ∀ p ∈ l, p.1 ≠ u) : (l.filter fun p => decide (p.1 ≠ u)) = l := by
  apply List.filter_eq_self.mpr
  intro p hp
  simpa using h p hp

theorem nodup_filter_fst {l : List (Nat × DevReq)} (h : (l.map Prod.fst).Nodup) (p : Nat × DevReq → Bool) : ((l.filter p).map Prod.fst).Nodup :=
  h.sublist ((List.filter_sublist).map _)

theorem CInv.uids {v : Vq} {es : List VEv} {cs : List Call} (h : CInv v es cs) : ∀ p ∈ unanswered es, p.1 ≠ v.popped := by
  rintro ⟨u, q⟩ hp
  obtain ⟨i, s, h1, h2, _⟩ := (h.mem u q).mp hp
  have := (h.inv.slot i s h1).1
  simp only
  omega

theorem cinv_step {dev : Bytes} {v v' : Vq} {es es' : List VEv} {cs cs' : List Call} (hv : CInv v es cs) (h : CStep dev v es' cs' v') :
    CInv v' (es ++ es') (cs ++ cs') := by
  have hI := inv_step hv.inv h.step
  cases h with
  | guest bytes =>
    rw [List.append_nil, List.append_nil] at *
    exact ⟨hI, hv.shown, hv.mem, hv.nodup⟩
  | notify =>
    have hu : ∀ b : Bool, unanswered (es ++ if b then [VEv.signal] else []) = unanswered es := by
      intro b; cases b <;> simp [unanswered, follow]
    refine ⟨hI, by rw [List.append_nil]; exact hv.shown, by rw [hu]; exact hv.mem, by rw [hu]; exact hv.nodup⟩
  | pop _ head descs es1 hlen hc =>
    obtain ⟨_, _, _, he⟩ := chain_spec hc hv.inv.small
    rcases chain_calls hc hv.inv.small with ⟨id, q, rfl, hcs⟩ | ⟨⟨st, rfl⟩, hinf, hcs⟩
    · cases he with
      | hold r _ _ s hp hn h4 h5 hf hq hm _ =>
        have hfree : v.inflight id = none := by
          cases hi : v.inflight id with
          | none => rfl
          | some q' => obtain ⟨t, ht⟩ := hv.inv.infl id q' hi; rw [hn] at ht; cases ht
        refine ⟨hI, ?_, ?_, ?_⟩
        · intro i
          rw [hcs, current_callOf, h5]
          by_cases e : id = i
          · subst e; rw [if_pos rfl, upd_same]; rfl
          · rw [if_neg e, upd_ne _ _ (Ne.symm e)]; exact hv.shown i
        · intro u q'
          rw [unanswered_hold, List.mem_append, hv.mem, h4, h5]
          constructor
          · rintro (⟨i, t, a, b, c⟩ | hl)
            · have hne : i ≠ id := by rintro rfl; rw [hn] at a; cases a
              exact ⟨i, t, by rw [upd_ne _ _ hne]; exact a, b, by rw [upd_ne _ _ hne]; exact c⟩
            · rw [List.mem_singleton, Prod.mk.injEq] at hl
              obtain ⟨rfl, rfl⟩ := hl
              exact ⟨id, s, upd_same _ _ _, hf.uid, upd_same _ _ _⟩
          · rintro ⟨i, t, a, b, c⟩
            by_cases e : i = id
            · subst e
              rw [upd_same] at a c
              obtain rfl := Option.some.inj a
              obtain rfl := Option.some.inj c
              right
              rw [List.mem_singleton, Prod.mk.injEq]
              exact ⟨b.symm.trans hf.uid, rfl⟩
            · rw [upd_ne _ _ e] at a c
              exact Or.inl ⟨i, t, a, b, c⟩
        · rw [unanswered_hold, List.map_append, List.nodup_append]
          refine ⟨hv.nodup, by simp, ?_⟩
          intro a ha b hb
          obtain ⟨p, hp', rfl⟩ := List.mem_map.mp ha
          simp only [List.map_cons, List.map_nil, List.mem_singleton] at hb
          rw [hb]
          exact hv.uids p hp'
    · have hheld : held v' = held v := by
        cases he with
        | bad h _ _ _ => exact h
        | done st h _ _ => exact h
      have hun : unanswered (es ++ [.popped v.popped head descs, .returned v.popped head st]) = unanswered es := by
        rw [unanswered_pop, filter_fresh hv.uids]
      refine ⟨hI, ?_, ?_, by rw [hun]; exact hv.nodup⟩
      · intro i
        rw [hinf]
        rcases hcs with hcs | ⟨id, hn, hcs⟩
        · rw [hcs, List.append_nil]; exact hv.shown i
        · rw [hcs, current_clear]
          by_cases e : id = i
          · subst e
            rw [if_pos rfl]
            cases hi : v.inflight id with
            | none => rfl
            | some q' => obtain ⟨t, ht⟩ := hv.inv.infl id q' hi; rw [hn] at ht; cases ht
          · rw [if_neg e]; exact hv.shown i
      · intro u q
        rw [hun, hv.mem, hheld, hinf]
  | poll _ id q data success _ hi hfill hpo =>
    obtain ⟨s, hs⟩ := hv.inv.infl id q hi
    obtain ⟨st, hP⟩ : ∃ st, Polled v v' id s data success es' st := by
      obtain ⟨a, b, c, m, r, ds, q', d, e, f, g, k, l⟩ := hv.inv.slot id s hs
      rw [hi] at k; obtain rfl := Option.some.inj k
      have hdl : data.length ≤ s.buf.length := by
        cases q with
        | read sec cnt =>
          simp only [DevReq.filled] at hfill
          obtain ⟨l1, _, l3⟩ := l
          rw [hfill, l3, ← g.len (by rw [g.ty, l1]; decide)]; exact g.fits
        | write => simp only [DevReq.filled] at hfill; rw [hfill]; simp
        | flush => simp only [DevReq.filled] at hfill; rw [hfill]; simp
      exact poll_spec hv.inv.small hs c hdl hpo
    have hun : unanswered (es ++ es') = (unanswered es).filter fun p => decide (p.1 ≠ s.uid) := by rw [hP.ev, unanswered_returned]
    refine ⟨hI, ?_, ?_, by rw [hun]; exact nodup_filter_fst hv.nodup _⟩
    · intro i
      rw [pollCalls, current_clear, hP.inflight]
      by_cases e : id = i
      · subst e; rw [if_pos rfl, upd_same]; rfl
      · rw [if_neg e, upd_ne _ _ (Ne.symm e)]; exact hv.shown i
    · intro u q'
      rw [hun, List.mem_filter, hv.mem, hP.held, hP.inflight, decide_eq_true_eq]
      constructor
      · rintro ⟨⟨i, t, a, b, c⟩, hne⟩
        have hne' : i ≠ id := by
          rintro rfl
          rw [hs] at a; obtain rfl := Option.some.inj a
          exact hne b.symm
        exact ⟨i, t, by rw [upd_ne _ _ hne']; exact a, b, by rw [upd_ne _ _ hne']; exact c⟩
      · rintro ⟨i, t, a, b, c⟩
        by_cases e : i = id
        · rw [e, upd_same] at a; cases a
        · rw [upd_ne _ _ e] at a c
          refine ⟨⟨i, t, a, b, c⟩, ?_⟩
          intro hu
          exact e (hv.inv.excl i id t s a hs (b.trans hu))

theorem crun_inv {dev : Bytes} {mem : GMem} {n bs : Nat} {v : Vq} {es : List VEv} {cs : List Call} (hbs : bs < 2 ^ 32)
    (h : CRun dev (Vq.init mem n bs) es cs v) : CInv v es cs := by
  generalize hi : Vq.init mem n bs = v0 at h
  induction h with
  | nil =>
    subst hi
    have hI := inv_init mem n bs hbs
    refine ⟨hI, fun _ => rfl, ?_, List.nodup_nil⟩
    intro u q
    constructor
    · intro h; exact absurd h List.not_mem_nil
    · rintro ⟨i, s, _, _, h⟩; cases h
  | snoc _ hs ih => exact cinv_step ih hs

/-- Two lists without repetition that have the same members. -/
theorem perm_of_mem {α : Type} {l l' : List α} (h : l.Nodup) (h' : l'.Nodup) (hm : ∀ a, a ∈ l ↔ a ∈ l') : l.Perm l' := by
  induction l generalizing l' with
  | nil =>
    cases l' with
    | nil => exact .nil
    | cons a _ => exact absurd ((hm a).mpr (List.mem_cons_self ..)) List.not_mem_nil
  | cons a l ih =>
    obtain ⟨p, q, rfl⟩ := List.append_of_mem ((hm a).mp (List.mem_cons_self ..))
    refine List.Perm.trans (List.Perm.cons a ?_) List.perm_middle.symm
    have h1 := List.nodup_cons.mp h
    have h2 := (List.nodup_cons.mp ((List.perm_middle (a := a) (l₁ := p) (l₂ := q)).nodup_iff.mp h'))
    refine ih h1.2 h2.2 ?_
    intro b
    constructor
    · intro hb
      have := (hm b).mp (List.mem_cons_of_mem _ hb)
      rcases List.mem_append.mp this with h | h
      · exact List.mem_append_left _ h
      · rcases List.mem_cons.mp h with rfl | h
        · exact absurd hb h1.1
        · exact List.mem_append_right _ h
    · intro hb
      have hne : b ≠ a := by rintro rfl; exact h2.1 hb
      have : b ∈ p ++ a :: q := by
        rcases List.mem_append.mp hb with h | h
        · exact List.mem_append_left _ h
        · exact List.mem_append_right _ (List.mem_cons_of_mem _ h)
      rcases List.mem_cons.mp ((hm b).mpr this) with h | h
      · exact absurd h hne
      · exact h

/-- The request in a slot, with its chain. -/
def occupant (v : Vq) (i : Nat) : Option (Nat × DevReq) := (held v i).bind fun s => (v.inflight i).map fun q => (s.uid, q)

theorem occupant_some {v : Vq} {i u : Nat} {q : DevReq} :
    occupant v i = some (u, q) ↔ ∃ s, held v i = some s ∧ s.uid = u ∧ v.inflight i = some q := by
  unfold occupant
  rw [Option.bind_eq_some_iff]
  constructor
  · rintro ⟨s, h1, h2⟩
    rw [Option.map_eq_some_iff] at h2
    obtain ⟨q', h2, h3⟩ := h2
    rw [Prod.mk.injEq] at h3
    exact ⟨s, h1, h3.1, by rw [h2, h3.2]⟩
  · rintro ⟨s, h1, rfl, h3⟩
    exact ⟨s, h1, by rw [h3]; rfl⟩

theorem occupants_perm {v : Vq} {es : List VEv} {cs : List Call} (hv : CInv v es cs) {N : Nat} (hN : v.slots.length ≤ N) :
    ((List.range N).filterMap (occupant v)).Perm (unanswered es) := by
  refine perm_of_mem ?_ ?_ ?_
  · unfold List.Nodup
    rw [List.pairwise_filterMap]
    refine List.Pairwise.imp ?_ (List.nodup_range (n := N))
    rintro i j hij ⟨u, q⟩ hb ⟨u', q'⟩ hb' he
    rw [Prod.mk.injEq] at he
    obtain ⟨s, a1, a2, _⟩ := occupant_some.mp hb
    obtain ⟨t, b1, b2, _⟩ := occupant_some.mp hb'
    exact hij (hv.inv.excl i j s t a1 b1 (by rw [a2, b2]; exact he.1))
  · have : (unanswered es).Pairwise fun a b => a.1 ≠ b.1 := List.pairwise_map.mp hv.nodup
    exact this.imp fun h he => h (congrArg Prod.fst he)
  · rintro ⟨u, q⟩
    rw [hv.mem, List.mem_filterMap]
    constructor
    · rintro ⟨i, _, h⟩
      obtain ⟨s, h⟩ := occupant_some.mp h
      exact ⟨i, s, h⟩
    · rintro ⟨i, s, h⟩
      refine ⟨i, ?_, occupant_some.mpr ⟨s, h⟩⟩
      rw [List.mem_range]
      have := (List.getElem?_eq_some_iff.mp (held_some.mp h.1).1).1
      omega

theorem occupant_seen {v : Vq} {es : List VEv} {cs : List Call} (hv : CInv v es cs) (i : Nat) :
    (occupant v i).map (fun p => seen p.2) = (current cs i).bind describe := by
  rw [hv.shown]
  unfold occupant
  cases hi : v.inflight i with
  | none => cases held v i <;> rfl
  | some q =>
    obtain ⟨s, hs⟩ := hv.inv.infl i q hi
    rw [hs]
    rfl

theorem passed_append (a b : List VEv) : passed (a ++ b) = passed a ++ passed b := List.filterMap_append ..

/-- Totals of the calls, as a tuple. -/
def callTotals (cs : List Call) : Nat × Nat × Nat × Nat × Nat :=
  (totalBytesRead cs, totalBytesWritten cs, totalReads cs, totalWrites cs, totalFlushes cs)

/-- Sum of two totals. -/
def addT (a b : Nat × Nat × Nat × Nat × Nat) : Nat × Nat × Nat × Nat × Nat :=
  (a.1 + b.1, a.2.1 + b.2.1, a.2.2.1 + b.2.2.1, a.2.2.2.1 + b.2.2.2.1, a.2.2.2.2 + b.2.2.2.2)

theorem totals_append (a b : List DevReq) : totals (a ++ b) = addT (totals a) (totals b) := by
  simp [totals, addT]

theorem callTotals_append (a b : List Call) : callTotals (a ++ b) = addT (callTotals a) (callTotals b) := by
  simp [callTotals, addT, totalBytesRead, totalBytesWritten, totalReads, totalWrites, totalFlushes]

theorem callTotals_callOf (id : Nat) (q : DevReq) : callTotals [callOf id q] = totals [q] := by
  cases q <;> simp [callTotals, totals, callOf, totalBytesRead, totalBytesWritten, totalReads, totalWrites, totalFlushes]

theorem callTotals_clear (id : Nat) : callTotals [.clear id] = totals [] := by
  simp [callTotals, totals, totalBytesRead, totalBytesWritten, totalReads, totalWrites, totalFlushes]

theorem callTotals_nil : callTotals [] = totals [] := rfl

theorem crun_totals {dev : Bytes} {mem : GMem} {n bs : Nat} {v : Vq} {es : List VEv} {cs : List Call} (hbs : bs < 2 ^ 32)
    (h : CRun dev (Vq.init mem n bs) es cs v) : callTotals cs = totals (passed es) := by
  generalize hi : Vq.init mem n bs = v0 at h
  induction h with
  | nil => rfl
  | @snoc v1 v2 es es' cs cs' hr hs ih =>
    subst hi
    rw [callTotals_append, passed_append, totals_append, ih]
    congr 1
    have hI := crun_inv hbs hr
    cases hs with
    | guest bytes => rfl
    | notify => cases v1.pendingSignal <;> rfl
    | pop _ head descs es1 hlen hc =>
      rcases chain_calls hc hI.inv.small with ⟨id, q, rfl, hcs⟩ | ⟨⟨st, rfl⟩, _, hcs | ⟨id, _, hcs⟩⟩
      · rw [hcs, callTotals_callOf]; rfl
      · rw [hcs]; rfl
      · rw [hcs, callTotals_clear]; rfl
    | poll _ id q data success _ hi hfill hpo =>
      rw [pollCalls, callTotals_clear]
      have : passed es' = [] := by
        unfold pollOne at hpo
        split at hpo
        · cases hpo
        · simp only at hpo
          have hc : ∀ (w : Vq) (u h s : Nat) (b : UInt8), passed (complete w u h s b).2 = [] := by
            intro w u h s b; unfold complete; simp only; split <;> rfl
          split at hpo
          · split at hpo
            · cases hpo
            · simp only [Res.ok.injEq, Prod.mk.injEq] at hpo; rw [← hpo.2]; exact hc ..
          · simp only [Res.ok.injEq, Prod.mk.injEq] at hpo; rw [← hpo.2]; exact hc ..
      rw [this]

end Verif.Vhost

/-! ## ublk -/

namespace Verif.Ublk
open Verif Verif.Metadata Verif.Disk Verif.Vhost Verif.Tracker

theorem CStep.step {maxIo depth : Nat} {fails : Bool} {u u' : Ub} {es : List UEv} {cs : List Call} (h : CStep maxIo depth fails u es cs u') :
    Step maxIo depth fails u es u' := by
  cases h with
  | arrive flags off cnt tag last data a b c d => exact .arrive u flags off cnt tag last data a b c d
  | enqueue rq rest a b => exact .enqueue u rq rest a b
  | submit a b => exact .submit u a b
  | submitFail a b c d => exact .submitFail u a b c d
  | report pre post id q data success a b c d e => exact .report u pre post id q data success a b c d e
  | exit a b c d => exact .exit u a b c d

theorem CRun.run {maxIo depth : Nat} {fails : Bool} {u : Ub} {es : List UEv} {cs : List Call} (h : CRun maxIo depth fails es cs u) :
    Run maxIo depth fails es u := by
  induction h with
  | nil => exact .nil
  | snoc _ hs ih => exact .snoc ih hs.step

theorem enqueueCalls_some {u : Ub} {rq : Rq} {q : DevReq} (h : devReq u rq = some q) : enqueueCalls u rq = [callOf rq.tag q] := by
  unfold devReq at h
  unfold enqueueCalls
  split at h
  · cases h
  · rename_i hn
    rw [if_neg hn]
    cases hop : rq.op <;> rw [hop] at h <;> simp only [Option.some.injEq, reduceCtorEq] at h <;> subst h <;> rfl

theorem enqueueCalls_none {u : Ub} {rq : Rq} (h : devReq u rq = none) : enqueueCalls u rq = [] := by
  unfold devReq at h
  unfold enqueueCalls
  split at h
  · rename_i hn; rw [if_pos hn]
  · rename_i hn
    rw [if_neg hn]
    cases hop : rq.op <;> rw [hop] at h <;> simp only [reduceCtorEq] at h <;> rfl

theorem failAll_spec (tags : List Nat) : ∀ (u : Ub) (w : Nat → Option DevReq),
    (failAll u tags).1.pending = u.pending ∧
    (∀ j, (failAll u tags).1.inflight j = if j ∈ tags then none else u.inflight j) ∧
    (∀ j, u.inflight j = none → (failAll u tags).1.out j = u.out j) ∧
    (∀ j, j ∉ tags → (failAll u tags).1.out j = u.out j) ∧
    (∀ j, (failAll u tags).2.foldl follow w j = if j ∈ tags ∧ u.inflight j ≠ none then none else w j) ∧
    passed (failAll u tags).2 = [] := by
  induction tags with
  | nil => intro u w; simp [failAll, passed]
  | cons tag tags ih =>
    intro u w
    unfold failAll
    cases hi : u.inflight tag with
    | none =>
      obtain ⟨a, b, c, d, e, f⟩ := ih u w
      refine ⟨a, ?_, c, fun j hj => d j fun hm => hj (List.mem_cons_of_mem _ hm), ?_, f⟩
      · intro j
        simp only [b]
        by_cases hj : j = tag
        · subst hj; simp [hi]
        · simp [hj]
      · intro j
        simp only [e]
        by_cases hj : j = tag
        · subst hj; simp [hi]
        · simp [hj]
    | some rq =>
      simp only [finish]
      obtain ⟨a, b, c, d, e, f⟩ := ih { u with inflight := upd u.inflight tag none, out := upd u.out tag none } (upd w tag none)
      refine ⟨a, ?_, ?_, ?_, ?_, ?_⟩
      · intro j
        rw [b]
        by_cases hj : j = tag
        · subst hj; simp [upd_same]
        · simp [hj, upd_ne _ _ hj]
      · intro j hj
        have hne : j ≠ tag := by rintro rfl; rw [hi] at hj; cases hj
        rw [c j (by simp only [upd_ne _ _ hne]; exact hj)]
        exact upd_ne _ _ hne
      · intro j hj
        have hne : j ≠ tag := by rintro rfl; exact hj (List.mem_cons_self ..)
        rw [d j fun hm => hj (List.mem_cons_of_mem _ hm)]
        exact upd_ne _ _ hne
      · intro j
        rw [List.singleton_append, List.foldl_cons]
        show (List.foldl follow (upd w tag none) _ j) = _
        rw [e]
        by_cases hj : j = tag
        · subst hj; simp [upd_same, hi]
        · simp [hj, upd_ne _ _ hj]
      · rw [passed, List.filterMap_append]
        show [] ++ passed _ = []
        rw [f]; rfl

/-- What holds after every run with the calls, whether or not submissions fail. -/
structure UInv (depth : Nat) (fails : Bool) (u : Ub) (es : List UEv) (cs : List Call) : Prop where
  pend : ∀ rq ∈ u.pending, u.out rq.tag ≠ none ∧ u.inflight rq.tag = none ∧ rq.tag < depth
  nodup : (u.pending.map Rq.tag).Nodup
  infl : ∀ id rq, u.inflight id = some rq → u.out id ≠ none ∧ rq.tag = id ∧ id < depth
  live : ∀ id, u.inflight id ≠ none → ∃ q, unanswered es id = some q ∧ (current cs id).bind describe = some (seen q)
  idle : ∀ id, u.inflight id = none → unanswered es id = none
  clean : fails = false → ∀ id, u.inflight id = none → (current cs id).bind describe = none

theorem unanswered_append (es es' : List UEv) : unanswered (es ++ es') = es'.foldl follow (unanswered es) := List.foldl_append ..

theorem report_spec (u : Ub) (id : Nat) (success : Bool) :
    (u.inflight id = none ∧ report u id success = (u, [])) ∨
    (u.inflight id ≠ none ∧ (report u id success).1.pending = u.pending ∧ (report u id success).1.inflight = upd u.inflight id none ∧
      (report u id success).1.out = upd u.out id none ∧ ∃ res buf, (report u id success).2 = [.complete id res buf]) := by
  unfold report
  cases hi : u.inflight id with
  | none => left; exact ⟨rfl, rfl⟩
  | some rq =>
    right
    refine ⟨by simp, ?_⟩
    simp only [finish, completeRequest]
    split
    · exact ⟨rfl, rfl, rfl, _, _, rfl⟩
    · split <;> exact ⟨rfl, rfl, rfl, _, _, rfl⟩

theorem cinv_step {maxIo depth : Nat} {fails : Bool} {u u' : Ub} {es es' : List UEv} {cs cs' : List Call} (hv : UInv depth fails u es cs)
    (h : CStep maxIo depth fails u es' cs' u') : UInv depth fails u' (es ++ es') (cs ++ cs') := by
  cases h with
  | arrive flags off cnt tag last data hl ho ht hd =>
    have hfree : u.inflight tag = none := by
      cases hi : u.inflight tag with
      | none => rfl
      | some rq => exact absurd ho (hv.infl tag rq hi).1
    rw [List.append_nil]
    unfold handle
    simp only
    split
    · have hun : unanswered (es ++ [UEv.arrive flags ⟨Op.ofRaw flags, off, cnt, tag, cnt * 512⟩, .complete tag none
          (upd u.bufs tag data tag)]) = unanswered es := by
        rw [unanswered_append]
        funext j
        show upd (unanswered es) tag none j = _
        by_cases hj : j = tag
        · subst hj; rw [upd_same, hv.idle j hfree]
        · rw [upd_ne _ _ hj]
      have hout : ∀ j, j ≠ tag → upd (upd u.out tag (some ⟨Op.ofRaw flags, off, cnt, tag, cnt * 512⟩)) tag none j = u.out j := by
        intro j hj; rw [upd_ne _ _ hj, upd_ne _ _ hj]
      refine ⟨?_, hv.nodup, ?_, ?_, ?_, hv.clean⟩
      · intro rq hrq
        obtain ⟨a, b, c⟩ := hv.pend rq hrq
        have : rq.tag ≠ tag := by intro e; rw [e] at a; exact a ho
        exact ⟨by simp only [finish]; rw [hout _ this]; exact a, b, c⟩
      · intro id rq hid
        obtain ⟨a, b, c⟩ := hv.infl id rq hid
        have : id ≠ tag := by rintro rfl; exact a ho
        exact ⟨by simp only [finish]; rw [hout _ this]; exact a, b, c⟩
      · simp only [finish]; rw [hun]; exact hv.live
      · simp only [finish]; rw [hun]; exact hv.idle
    · have hun : ∀ rq, unanswered (es ++ [UEv.arrive flags rq]) = unanswered es := by
        intro rq; rw [unanswered_append]; rfl
      refine ⟨?_, ?_, ?_, by rw [hun]; exact hv.live, by rw [hun]; exact hv.idle, hv.clean⟩
      · intro rq hrq
        rcases List.mem_append.mp hrq with hrq | hrq
        · obtain ⟨a, b, c⟩ := hv.pend rq hrq
          have : rq.tag ≠ tag := by intro e; rw [e] at a; exact a ho
          exact ⟨by simp only; rw [upd_ne _ _ this]; exact a, b, c⟩
        · rw [List.mem_singleton] at hrq
          subst hrq
          exact ⟨by simp only; rw [upd_same]; simp, hfree, ht⟩
      · rw [List.map_append, List.nodup_append]
        refine ⟨hv.nodup, by simp, ?_⟩
        intro a ha b hb
        obtain ⟨rq, hrq, rfl⟩ := List.mem_map.mp ha
        simp only [List.map_cons, List.map_nil, List.mem_singleton] at hb
        intro e
        have := (hv.pend rq hrq).1
        rw [e, hb] at this
        exact this ho
      · intro id rq hid
        obtain ⟨a, b, c⟩ := hv.infl id rq hid
        have : id ≠ tag := by rintro rfl; exact a ho
        exact ⟨by simp only; rw [upd_ne _ _ this]; exact a, b, c⟩
  | enqueue rq rest hl hp =>
    obtain ⟨hpo, hpi, hpd⟩ := hv.pend rq (by rw [hp]; exact List.mem_cons_self ..)
    have hnd := hv.nodup
    rw [hp, List.map_cons] at hnd
    obtain ⟨hnew, hnd⟩ := List.nodup_cons.mp hnd
    have hrest : ∀ r ∈ rest, r.tag ≠ rq.tag := fun r hr e => hnew (List.mem_map.mpr ⟨r, hr, e⟩)
    have hpend : ∀ r ∈ rest, u.out r.tag ≠ none ∧ u.inflight r.tag = none ∧ r.tag < depth :=
      fun r hr => hv.pend r (by rw [hp]; exact List.mem_cons_of_mem _ hr)
    unfold enqueue
    cases hq : devReq { u with pending := rest } rq with
    | none =>
      rw [enqueueCalls_none hq, List.append_nil]
      simp only [finish]
      have hun : unanswered (es ++ [UEv.complete rq.tag none (u.bufs rq.tag)]) = unanswered es := by
        rw [unanswered_append]
        funext j
        show upd (unanswered es) rq.tag none j = _
        by_cases hj : j = rq.tag
        · subst hj; rw [upd_same, hv.idle _ hpi]
        · rw [upd_ne _ _ hj]
      refine ⟨?_, hnd, ?_, by rw [hun]; exact hv.live, by rw [hun]; exact hv.idle, hv.clean⟩
      · intro r hr
        obtain ⟨a, b, c⟩ := hpend r hr
        exact ⟨by simp only; rw [upd_ne _ _ (hrest r hr)]; exact a, b, c⟩
      · intro id r hid
        obtain ⟨a, b, c⟩ := hv.infl id r hid
        have : id ≠ rq.tag := by rintro rfl; rw [hpi] at hid; cases hid
        exact ⟨by simp only; rw [upd_ne _ _ this]; exact a, b, c⟩
    | some q =>
      rw [enqueueCalls_some hq]
      simp only
      have hun : unanswered (es ++ [UEv.dev rq.tag q]) = upd (unanswered es) rq.tag (some q) := by
        rw [unanswered_append]; rfl
      refine ⟨?_, hnd, ?_, ?_, ?_, ?_⟩
      · intro r hr
        obtain ⟨a, b, c⟩ := hpend r hr
        exact ⟨a, by simp only; rw [upd_ne _ _ (hrest r hr)]; exact b, c⟩
      · intro id r hid
        simp only at hid
        by_cases e : id = rq.tag
        · subst e
          rw [upd_same] at hid
          obtain rfl := Option.some.inj hid
          exact ⟨hpo, rfl, hpd⟩
        · rw [upd_ne _ _ e] at hid
          exact hv.infl id r hid
      · intro id hid
        simp only at hid
        rw [hun, current_callOf]
        by_cases e : id = rq.tag
        · subst e; rw [upd_same, if_pos rfl]; exact ⟨q, rfl, rfl⟩
        · rw [upd_ne _ _ e] at hid ⊢
          rw [if_neg (Ne.symm e)]
          exact hv.live id hid
      · intro id hid
        simp only at hid
        rw [hun]
        by_cases e : id = rq.tag
        · subst e; rw [upd_same] at hid; cases hid
        · rw [upd_ne _ _ e] at hid ⊢
          exact hv.idle id hid
      · intro hf id hid
        simp only at hid
        rw [current_callOf]
        by_cases e : id = rq.tag
        · subst e; rw [upd_same] at hid; cases hid
        · rw [upd_ne _ _ e] at hid
          rw [if_neg (Ne.symm e)]
          exact hv.clean hf id hid
  | submit hl hp =>
    rw [List.append_nil, List.append_nil]
    exact ⟨hv.pend, hv.nodup, hv.infl, hv.live, hv.idle, hv.clean⟩
  | submitFail hf hl hp hq =>
    rw [List.append_nil]
    obtain ⟨a, b, c, d, e, _⟩ := failAll_spec (List.range depth) { u with queued := false, looping := false } (unanswered es)
    have hall : ∀ j, (failAll { u with queued := false, looping := false } (List.range depth)).1.inflight j = none := by
      intro j
      rw [b]
      split
      · rfl
      · rename_i hn
        cases hi : u.inflight j with
        | none => rfl
        | some rq => exact absurd (List.mem_range.mpr (hv.infl j rq hi).2.2) hn
    refine ⟨?_, by rw [a]; exact hv.nodup, ?_, ?_, ?_, ?_⟩
    · rw [a]; simp only; rw [hp]; intro rq hrq; exact absurd hrq List.not_mem_nil
    · intro id rq hid; rw [hall] at hid; cases hid
    · intro id hid; exact absurd (hall id) hid
    · intro id _
      rw [unanswered_append, e]
      simp only
      split
      · rfl
      · rename_i hn
        cases hi : u.inflight id with
        | none => exact hv.idle id hi
        | some rq => exact absurd ⟨List.mem_range.mpr (hv.infl id rq hi).2.2, by rw [hi]; simp⟩ hn
    · intro hf'; rw [hf] at hf'; cases hf'
  | report pre post id q data success hl hp hq hc hf =>
    rcases report_spec { u with chan := pre ++ post, back := upd u.back id (data ++ (u.back id).drop data.length) } id success with
      ⟨h1, h2⟩ | ⟨h1, h2, h3, h4, res, buf, h5⟩
    · rw [h2]
      have hcs : reportCalls u id = [] := by
        unfold reportCalls
        simp only at h1
        rw [h1]
      rw [hcs, List.append_nil, List.append_nil]
      exact ⟨hv.pend, hv.nodup, hv.infl, hv.live, hv.idle, hv.clean⟩
    · have hcs : reportCalls u id = [.clear id] := by
        unfold reportCalls
        simp only at h1
        cases hi : u.inflight id with
        | none => exact absurd hi h1
        | some _ => rfl
      have hun : unanswered (es ++ (report { u with chan := pre ++ post, back := upd u.back id (data ++ (u.back id).drop data.length) } id success).2)
          = upd (unanswered es) id none := by
        rw [h5, unanswered_append]; rfl
      rw [hcs]
      refine ⟨?_, by rw [h2]; exact hv.nodup, ?_, ?_, ?_, ?_⟩
      · rw [h2]; simp only; rw [hp]; intro rq hrq; exact absurd hrq List.not_mem_nil
      · intro j rq hj
        rw [h3] at hj
        rw [h4]
        simp only at hj ⊢
        by_cases e : j = id
        · subst e; rw [upd_same] at hj; cases hj
        · rw [upd_ne _ _ e] at hj ⊢; exact hv.infl j rq hj
      · intro j hj
        rw [h3] at hj
        rw [hun, current_clear]
        simp only at hj
        by_cases e : j = id
        · subst e; rw [upd_same] at hj; exact absurd rfl hj
        · rw [upd_ne _ _ e] at hj ⊢; rw [if_neg (Ne.symm e)]; exact hv.live j hj
      · intro j hj
        rw [h3] at hj
        rw [hun]
        simp only at hj
        by_cases e : j = id
        · subst e; rw [upd_same]
        · rw [upd_ne _ _ e] at hj ⊢; exact hv.idle j hj
      · intro hf' j hj
        rw [h3] at hj
        rw [current_clear]
        simp only at hj
        by_cases e : j = id
        · subst e; rw [if_pos rfl]
        · rw [upd_ne _ _ e] at hj; rw [if_neg (Ne.symm e)]; exact hv.clean hf' j hj
  | exit hl hp hq hc =>
    rw [List.append_nil, List.append_nil]
    exact ⟨hv.pend, hv.nodup, hv.infl, hv.live, hv.idle, hv.clean⟩

theorem crun_inv {maxIo depth : Nat} {fails : Bool} {u : Ub} {es : List UEv} {cs : List Call} (h : CRun maxIo depth fails es cs u) :
    UInv depth fails u es cs := by
  induction h with
  | nil =>
    exact ⟨fun _ h => absurd h List.not_mem_nil, List.nodup_nil, fun _ _ h => (by cases h), fun _ h => absurd rfl h, fun _ _ => rfl,
      fun _ _ _ => rfl⟩
  | snoc _ hs ih => exact cinv_step ih hs

theorem passed_append (a b : List UEv) : passed (a ++ b) = passed a ++ passed b := List.filterMap_append ..

theorem crun_totals {maxIo depth : Nat} {fails : Bool} {u : Ub} {es : List UEv} {cs : List Call} (h : CRun maxIo depth fails es cs u) :
    callTotals cs = totals (passed es) := by
  induction h with
  | nil => rfl
  | @snoc es es' cs cs' u1 u2 hr hs ih =>
    rw [callTotals_append, passed_append, totals_append, ih]
    congr 1
    cases hs with
    | arrive flags off cnt tag last data hl ho ht hd =>
      unfold handle
      simp only
      split <;> rfl
    | enqueue rq rest hl hp =>
      unfold enqueue
      cases hq : devReq { u1 with pending := rest } rq with
      | none => rw [enqueueCalls_none hq]; rfl
      | some q => rw [enqueueCalls_some hq, callTotals_callOf]; rfl
    | submit => rfl
    | submitFail hf hl hp hq =>
      rw [(failAll_spec (List.range depth) _ fun _ => none).2.2.2.2.2]; rfl
    | report pre post id q data success hl hp hq hc hf =>
      rcases report_spec { u1 with chan := pre ++ post, back := upd u1.back id (data ++ (u1.back id).drop data.length) } id success with
        ⟨h1, h2⟩ | ⟨h1, h2, h3, h4, res, buf, h5⟩
      · rw [h2]
        have hcs : reportCalls u1 id = [] := by
          unfold reportCalls
          simp only at h1
          rw [h1]
        rw [hcs]; rfl
      · rw [h5]
        have hcs : reportCalls u1 id = [.clear id] := by
          unfold reportCalls
          simp only at h1
          cases hi : u1.inflight id with
          | none => exact absurd hi h1
          | some _ => rfl
        rw [hcs, callTotals_clear]; rfl
    | exit => rfl

end Verif.Ublk
