import Verif.Model.Front
import Verif.Props.Vhost
import Verif.Proof.Rename
import Verif.Proof.StackSim

/-! # The virtqueues over a disk -/

set_option maxRecDepth 8000

namespace Verif.Vhost
open Verif Verif.Metadata Verif.Disk

/-! ## Which chains go to the disk -/

theorem wellFormed_iff {m : GMem} {ds : List Desc} : wellFormed m ds = true ↔ ∃ r, Accepted m ds r := by
  unfold wellFormed
  constructor
  · intro h
    split at h
    · rename_i hd s h1 h2
      simp only [Bool.and_eq_true, Bool.not_eq_true', Bool.or_eq_true, decide_eq_true_eq, List.all_eq_true] at h
      obtain ⟨⟨⟨⟨a1, a2⟩, ⟨⟨a3, a4⟩, a5⟩⟩, a6⟩, a7⟩ := h
      refine ⟨⟨RType.ofCode (headerType m hd.addr), dataOf ds, headerSector m hd.addr, s.addr⟩,
        ⟨hd, h1, a1, a2, rfl, rfl, fun e => a6.resolve_left fun h => h e⟩, rfl, fun e d hd' => ?_, ⟨s, h2, a3, a4, a5, rfl⟩⟩
      exact a7.resolve_left (fun h => h (ofCode_in e)) d hd'
    · cases h
  · rintro ⟨r, ⟨hd, a1, a2, a3, a4, a5, a6⟩, b, c, ⟨s, d1, d2, d3, d4, d5⟩⟩
    rw [a1, d1]
    simp only [Bool.and_eq_true, Bool.not_eq_true', Bool.or_eq_true, decide_eq_true_eq, List.all_eq_true]
    refine ⟨⟨⟨⟨a2, a3⟩, ⟨⟨d2, d3⟩, d4⟩⟩, ?_⟩, ?_⟩
    · by_cases e : headerType m hd.addr = 4
      · exact .inr (a6 e)
      · exact .inl e
    · by_cases e : headerType m hd.addr = 0
      · exact .inr (c (by rw [a4, e]; rfl))
      · exact .inl e

theorem ofCode_flush {k : Nat} (h : RType.ofCode k = .flush) : k = 4 := by
  unfold RType.ofCode at h
  by_cases h0 : k = 0
  · rw [if_pos h0] at h; cases h
  by_cases h1 : k = 1
  · rw [if_neg h0, if_pos h1] at h; cases h
  by_cases h4 : k = 4
  · exact h4
  by_cases h8 : k = 8
  · rw [if_neg h0, if_neg h1, if_neg h4, if_pos h8] at h; cases h
  · rw [if_neg h0, if_neg h1, if_neg h4, if_neg h8] at h; cases h

/-- What is sent to the channel is what the chain asks for. -/
theorem wanted_issued {m : GMem} {ds : List Desc} {r : Request} {q : DevReq} (hp : parse m ds = .ok r) (hq : Issued m r q)
    (ht : total (dataOf ds) < 2 ^ 32) : wanted m ds = some q.toReq := by
  have hA := (C37_parse_partial m ds r).1 hp
  have hw : wellFormed m ds = true := wellFormed_iff.2 ⟨r, hA⟩
  obtain ⟨⟨hd, a1, a2, a3, a4, a5, a6⟩, b, -, -⟩ := hA
  unfold wanted
  rw [a1]
  simp only [hw, Bool.true_eq_false, if_false]
  cases q with
  | read sec cnt =>
    obtain ⟨h1, h2, h3⟩ := hq
    rw [h1] at a4
    rw [b, Nat.mod_eq_of_lt ht] at h3
    rw [if_pos (ofCode_in a4.symm), if_pos (by omega), DevReq.toReq, h2, a5, ← h3, Nat.mul_div_cancel _ (by decide)]
  | write sec cnt d =>
    obtain ⟨h1, h2, h3, h4, h5⟩ := hq
    rw [h1] at a4
    have e := ofCode_out a4.symm
    rw [b] at h3 h4 h5
    rw [if_neg (by rw [e]; decide), if_pos e, if_pos ⟨by omega, by simpa using h5⟩, DevReq.toReq, h2, a5, h4, ← h3, Nat.mul_div_cancel _ (by decide)]
  | flush =>
    have h1 : r.ty = .flush := hq
    rw [h1] at a4
    have e := ofCode_flush a4.symm
    rw [if_neg (by rw [e]; decide), if_neg (by rw [e]; decide), if_pos e]
    rfl

/-- A chain that asks for a disk request is not answered at once. -/
theorem wanted_called {dev : Bytes} {v v' : Vq} {head : Nat} {ds : List Desc} {es : List VEv}
    (h : processChain dev v head ds = .ok (v', es)) {r : Req Bytes} (hw : wanted v.mem ds = some r) (ht : total (dataOf ds) < 2 ^ 32)
    (hs : Small v) : ∃ id q, es = [.dev id q] := by
  unfold wanted at hw
  split at hw
  · cases hw
  rename_i hd hhd
  split at hw
  · cases hw
  rename_i hwf
  obtain ⟨r0, hA⟩ := wellFormed_iff.1 (by simpa using hwf)
  have hp := (C37_parse_partial _ _ _).2 hA
  obtain ⟨⟨hd', a1, a2, a3, a4, a5, a6⟩, b, -, -⟩ := hA
  rw [hhd, Option.some.injEq] at a1
  subst a1
  have hlen : requestLen r0 = total (dataOf ds) := by rw [requestLen_eq, b, Nat.mod_eq_of_lt ht]
  unfold processChain at h
  simp only [hp] at h
  by_cases e0 : headerType v.mem hd.addr = 0
  · rw [if_pos e0] at hw
    split at hw
    · rename_i hm
      have ty : r0.ty = .in := by rw [a4, e0]; rfl
      rw [ty] at h
      simp only [processRead, hlen, hm] at h
      simp only [ne_eq, not_true_eq_false, if_false, Res.ok.injEq, Prod.mk.injEq] at h
      exact ⟨_, _, h.2.symm⟩
    · cases hw
  rw [if_neg e0] at hw
  by_cases e1 : headerType v.mem hd.addr = 1
  · rw [if_pos e1] at hw
    split at hw
    · rename_i hm
      have ty : r0.ty = .out := by rw [a4, e1]; rfl
      rw [ty] at h
      simp only [processWrite, hlen, hm.1] at h
      simp only [ne_eq, not_true_eq_false, if_false] at h
      split at h
      · cases h
      · rename_i buf failed hg
        cases failed with
        | false =>
          simp only [Bool.false_eq_true, if_false, Res.ok.injEq, Prod.mk.injEq] at h
          exact ⟨_, _, h.2.symm⟩
        | true =>
          exfalso
          generalize hgs : getSlot { v with popped := v.popped + 1 } (total (dataOf ds)) r0 ⟨v.popped, head, ds⟩ = gs at hg
          obtain ⟨v1, id⟩ := gs
          obtain ⟨_, _, _, _, _, _, _, h7⟩ := getSlot_spec hgs hs ht
          have hmem : v1.mem = v.mem := by rw [h7]
          obtain ⟨-, -, g3, -⟩ := gather_ok hg (Nat.zero_le _)
          have := g3.2 ⟨rfl, by
            simp only [hmem, b]
            have := hm.2
            simpa using this⟩
          cases this
    · cases hw
  rw [if_neg e1] at hw
  by_cases e4 : headerType v.mem hd.addr = 4
  · have ty : r0.ty = .flush := by rw [a4, e4]; rfl
    rw [ty] at h
    simp only [processFlush, Res.ok.injEq, Prod.mk.injEq] at h
    exact ⟨_, _, h.2.symm⟩
  · rw [if_neg e4] at hw; cases hw

/-- Sectors out of the concatenation of sectors. -/
theorem sector_flat (data : List (Option Bytes)) (h : ∀ b ∈ data, ∃ s : Bytes, b = some s ∧ s.length = 512) :
    (List.range data.length).map (fun j => some (sectorOf (data.flatMap fun b => b.getD []) j)) = data := by
  induction data with
  | nil => rfl
  | cons b data ih =>
    obtain ⟨s, rfl, hs⟩ := h b (.head _)
    rw [List.length_cons, List.range_succ_eq_map, List.map_cons, List.map_map]
    have h0 : sectorOf ((some s :: data).flatMap fun b => b.getD []) 0 = s := by
      simp only [sectorOf, List.flatMap_cons, Option.getD_some, Nat.zero_mul, List.drop_zero]
      rw [List.take_append_of_le_length (by omega), List.take_of_length_le (by omega)]
    have h1 : ∀ j, sectorOf ((some s :: data).flatMap fun b => b.getD []) (j + 1) = sectorOf (data.flatMap fun b => b.getD []) j := by
      intro j
      simp only [sectorOf, List.flatMap_cons, Option.getD_some]
      rw [show (j + 1) * 512 = s.length + j * 512 by omega, List.drop_append, List.drop_eq_nil_of_le (by omega), List.nil_append,
        Nat.add_sub_cancel_left]
    rw [h0]
    congr 1
    refine Eq.trans (List.map_congr_left fun j _ => ?_) (ih fun b hb => h b (.tail _ hb))
    simp only [Function.comp, Nat.succ_eq_add_one, h1]

/-! ## The simulation -/

/-- A call of the channel and the request in flight it made. -/
inductive Kind : DevReq → Op Bytes → Prop where
  | read (sec cnt got) : Kind (.read sec cnt) (.read sec cnt got)
  | write (sec cnt d data done) : Kind (.write sec cnt d) (.write sec cnt data done)
  | flush (snap) : Kind .flush (.flush snap)

/-- The guest's name of the request in a slot. -/
def names (f : Front) (p : Nat × Nat) : Option (Nat × Nat) := (held (f.qs p.1) p.2).map fun s => (p.1, s.uid)

structure Sim (f : Front) (d u : Disk Bytes) (t : Disk Bytes) : Prop where
  lag : Lag id f.box d t
  ren : Ren (names f) t u
  kind : ∀ p dq op, (f.qs p.1).inflight p.2 = some dq → t.ops p = some op → Kind dq op
  slot : ∀ q i s, held (f.qs q) i = some s → ∃ r dq, parse (f.chains (q, s.uid)).1 (f.chains (q, s.uid)).2 = .ok r ∧
    For r ⟨s.uid, s.head, (f.chains (q, s.uid)).2⟩ s ∧ (f.qs q).inflight i = some dq ∧ Issued (f.chains (q, s.uid)).1 r dq ∧
    Sane (f.chains (q, s.uid)).2
  inv : ∀ q, f.first ≤ q → ∃ es, Inv (f.at q) es

theorem kind_exec {t : Disk Bytes} {o : Nat × Nat} {x : Nat} {f : Front}
    (h : ∀ p dq op, (f.qs p.1).inflight p.2 = some dq → t.ops p = some op → Kind dq op) :
    ∀ p dq op, (f.qs p.1).inflight p.2 = some dq → (t.exec o x).ops p = some op → Kind dq op := by
  intro p dq op h1 h2
  unfold Dev.exec at h2
  split at h2
  · rename_i off cnt got ho
    split at h2
    · by_cases e : p = o
      · subst e
        simp only [upd_same, Option.some.injEq] at h2
        subst h2
        cases h p dq _ h1 ho
        exact .read _ _ _
      · simp only [upd_ne _ _ e] at h2
        exact h p dq op h1 h2
    · exact h p dq op h1 h2
  · rename_i off cnt data done ho
    split at h2
    · by_cases e : p = o
      · subst e
        simp only [upd_same, Option.some.injEq] at h2
        subst h2
        cases h p dq _ h1 ho
        exact .write _ _ _ _ _
      · simp only [upd_ne _ _ e] at h2
        exact h p dq op h1 h2
    · exact h p dq op h1 h2
  · exact h p dq op h1 h2

theorem Sim.silent {f : Front} {d d' u t : Disk Bytes} (h : Sim f d u t) (hr : Disk.Run d [] d') :
    ∃ u' t', Disk.Run u [] u' ∧ Sim f d' u' t' := by
  refine Stack.run_nil_ind hr rfl (fun d' => ∃ u' t', Disk.Run u [] u' ∧ Sim f d' u' t') ⟨u, t, .nil _, h⟩ ?_
  rintro d o x ⟨u', t', h1, h2⟩
  rcases h2.lag.exec (fun _ _ e => e) o x with h3 | ⟨o', ho', h3⟩
  · exact ⟨u', t', h1, h3, h2.ren, h2.kind, h2.slot, h2.inv⟩
  · rcases h2.ren.exec o' x with h4 | ⟨w, -, h4⟩
    · exact ⟨u', _, h1, h3, h4, kind_exec h2.kind, h2.slot, h2.inv⟩
    · exact ⟨u'.exec w x, _, by have := h1.snoc (Disk.Step.exec u' w x); simpa using this, h3, h4, kind_exec h2.kind, h2.slot, h2.inv⟩

theorem held_init (mem : GMem) (n bs i : Nat) : held (Vq.init mem n bs) i = none := by
  cases h : held (Vq.init mem n bs) i with
  | none => rfl
  | some s =>
    obtain ⟨h1, h2⟩ := held_some.mp h
    have := List.mem_of_getElem? h1
    simp only [Vq.init, List.mem_replicate] at this
    rw [this.2] at h2; cases h2

theorem Sim.init {d : Disk Bytes} {v : Nat → Bytes} (hd : Stack.AtRest d v) (mem : GMem) {n bs : Nat} (hbs : bs < 2 ^ 32) :
    Sim (Front.init mem n bs) d (Dev.fresh v) (Dev.fresh v) := by
  have hn : names (Front.init mem n bs) = fun _ => none := by
    funext p; simp only [names, Front.init, held_init]; rfl
  refine ⟨hd.lag, by rw [hn]; exact Ren.fresh v, fun p dq op h => (nomatch h), fun q i s h => ?_, fun q _ => ⟨[], inv_init mem n bs hbs⟩⟩
  have : held (Vq.init mem n bs) i = some s := h
  rw [held_init] at this; cases this

/-- Another thread changed guest memory. -/
theorem Inv.guest {v : Vq} {es : List VEv} (h : Inv v es) (m : GMem) (hm : m.ok = v.mem.ok) : ∃ es, Inv { v with mem := m } es := by
  have := inv_step (dev := []) h (Step.guest v m.bytes)
  have e : { v.mem with bytes := m.bytes } = m := by cases m; simp only [← hm]
  exact ⟨_, e ▸ this⟩

theorem inv_set {f : Front} (h : ∀ q, f.first ≤ q → ∃ es, Inv (f.at q) es) {q : Nat} {v : Vq} (hv : ∃ es, Inv v es) (hm : v.mem.ok = f.mem.ok)
    (g : Front) (h1 : g.mem = v.mem) (h2 : g.qs = upd f.qs q v) (h3 : g.first = f.first) : ∀ q', g.first ≤ q' → ∃ es, Inv (g.at q') es := by
  intro q' hf
  have e : g.at q' = { upd f.qs q v q' with mem := v.mem } := by rw [Front.at, h1, h2]
  rw [e]
  by_cases hq : q' = q
  · subst hq; rw [upd_same]; exact hv
  · rw [upd_ne _ _ hq]
    obtain ⟨es, hi⟩ := h q' (h3 ▸ hf)
    exact hi.guest v.mem hm

theorem names_set {f g : Front} {q i : Nat} {v : Vq} {x : Option Slot} (h1 : g.qs = upd f.qs q v) (h2 : held v = upd (held (f.qs q)) i x) :
    names g = upd (names f) (q, i) (x.map fun s => (q, s.uid)) := by
  funext p
  obtain ⟨a, b⟩ := p
  simp only [names, h1]
  by_cases ha : a = q
  · subst ha
    rw [upd_same, h2]
    by_cases hb : b = i
    · subst hb; rw [upd_same, upd_same]
    · rw [upd_ne _ _ hb, upd_ne _ _ (by simpa using hb)]; rfl
  · rw [upd_ne _ _ ha, upd_ne _ _ (by simp [ha])]; rfl

theorem names_same {f g : Front} {q : Nat} {v : Vq} (h1 : g.qs = upd f.qs q v) (h2 : held v = held (f.qs q)) : names g = names f := by
  funext p
  obtain ⟨a, b⟩ := p
  simp only [names, h1]
  by_cases ha : a = q
  · subst ha; rw [upd_same, h2]
  · rw [upd_ne _ _ ha]

theorem kind_issue {t : Disk Bytes} {p o : Nat × Nat} {dq : DevReq} {op : Op Bytes} (h : (Dev.issue t o dq.toReq).ops p = some op) :
    p = o ∧ Kind dq op ∨ p ≠ o ∧ ∃ op0, t.ops p = some op0 ∧ ∀ dq', Kind dq' op0 → Kind dq' op := by
  by_cases e : p = o
  · subst e
    refine .inl ⟨rfl, ?_⟩
    cases dq with
    | read => simp only [DevReq.toReq, Dev.issue, Dev.issueRead, upd_same, Option.some.injEq] at h; subst h; exact .read _ _ _
    | write => simp only [DevReq.toReq, Dev.issue, Dev.issueWrite, upd_same, Option.some.injEq] at h; subst h; exact .write _ _ _ _ _
    | flush => simp only [DevReq.toReq, Dev.issue, Dev.issueFlush, upd_same, Option.some.injEq] at h; subst h; exact .flush _
  · refine .inr ⟨e, ?_⟩
    cases dq with
    | read => simp only [DevReq.toReq, Dev.issue, Dev.issueRead, upd_ne _ _ e] at h; exact ⟨op, h, fun _ h => h⟩
    | write =>
      simp only [DevReq.toReq, Dev.issue, Dev.issueWrite, upd_ne _ _ e, Option.map_eq_some_iff] at h
      obtain ⟨op0, h1, rfl⟩ := h
      refine ⟨op0, h1, fun dq' hk => ?_⟩
      cases hk with
      | read => exact .read _ _ _
      | write => exact .write _ _ _ _ _
      | flush => exact .flush _
    | flush => simp only [DevReq.toReq, Dev.issue, Dev.issueFlush, upd_ne _ _ e] at h; exact ⟨op, h, fun _ h => h⟩

/-- What the guest finds is what the disk delivered. -/
theorem found_read {m : GMem} {ds : List Desc} {buf : Bytes} {data : List (Option Bytes)} (hd : ∀ b ∈ data, ∃ s : Bytes, b = some s ∧ s.length = 512)
    (hb : buf = data.flatMap fun b => b.getD []) (hl : buf.length = (places (dataOf ds)).length)
    (hm : ∀ i a, (places (dataOf ds))[i]? = some a → m.bytes a = buf.getD i 0) (sec : Nat) :
    found m ds (.read sec data.length) true = data := by
  have e : (places (dataOf ds)).map m.bytes = buf := by
    refine List.ext_getElem? fun i => ?_
    rw [List.getElem?_map]
    cases ha : (places (dataOf ds))[i]? with
    | none =>
      have := List.getElem?_eq_none_iff.1 ha
      rw [List.getElem?_eq_none (by omega)]; rfl
    | some a =>
      have hi := (List.getElem?_eq_some_iff.1 ha).1
      rw [Option.map_some, hm i a ha, List.getD_eq_getElem?_getD, List.getElem?_eq_getElem (by omega)]; rfl
  unfold found
  rw [e, hb]
  exact sector_flat data hd

theorem step_sim {dev : Bytes} {n bs : Nat} {f f' : Front} {ls : List FLab} {es : List (Ev Bytes)} {d d' u t : Disk Bytes} (hbs : bs < 2 ^ 32)
    (h : FStep dev n bs f ls es f') (hsane : ∀ q k m ds, FLab.popped q k m ds ∈ ls → Sane ds) (hr : Disk.Run d es d') (hS : Sim f d u t) :
    ∃ u' t', Disk.Run u (ls.flatMap FLab.view) u' ∧ Sim f' d' u' t' := by
  cases h with
  | guest bytes =>
    obtain ⟨u', t', h1, h2⟩ := hS.silent hr
    refine ⟨u', t', h1, h2.lag, h2.ren, h2.kind, h2.slot, fun q hf => ?_⟩
    obtain ⟨es, hi⟩ := h2.inv q hf
    exact hi.guest { f.mem with bytes } rfl
  | notify q hq0 =>
    obtain ⟨u', t', h1, h2⟩ := hS.silent hr
    have hset : ∀ (α : Type) (F : Vq → α), F { f.qs q with pendingSignal := false } = F (f.qs q) →
        ∀ q', F (upd f.qs q { f.qs q with pendingSignal := false } q') = F (f.qs q') := by
      intro α F hF q'
      by_cases e : q' = q
      · subst e; rw [upd_same, hF]
      · rw [upd_ne _ _ e]
    have hh : ∀ q', held (upd f.qs q { f.qs q with pendingSignal := false } q') = held (f.qs q') := hset _ held rfl
    have hi : ∀ q', (upd f.qs q { f.qs q with pendingSignal := false } q').inflight = (f.qs q').inflight := hset _ Vq.inflight rfl
    refine ⟨u', t', h1, h2.lag, ?_, ?_, ?_, ?_⟩
    · rw [names_same (g := { f with qs := upd f.qs q { f.qs q with pendingSignal := false } }) rfl rfl]; exact h2.ren
    · intro p dq op hp; rw [hi] at hp; exact h2.kind p dq op hp
    · intro q' i s hs
      rw [hh] at hs
      simp only [hi]
      exact h2.slot q' i s hs
    · intro q' hf
      obtain ⟨es, h3⟩ := h2.inv q' hf
      by_cases e : q' = q
      · subst e
        have := inv_step (dev := dev) h3 (Step.notify _)
        exact ⟨_, by simp only [Front.at, upd_same]; exact this⟩
      · exact ⟨es, by simp only [Front.at, upd_ne _ _ e]; exact h3⟩
  | client mem m hm hu =>
    obtain ⟨u', t', h1, h2⟩ := hS.silent hr
    have hold : ∀ q i, m ≤ q → held (f.qs q) i = none := by
      intro q i hq
      cases hh : held (f.qs q) i with
      | none => rfl
      | some s =>
        obtain ⟨es, hi⟩ := h2.inv q (Nat.le_trans hm hq)
        have h3 : s.uid < (f.qs q).popped := (hi.slot i s hh).1
        rw [hu q hq] at h3; omega
    have hnm : ∀ q i, held (if q < m then f.qs q else Vq.init mem n bs) i = held (f.qs q) i := by
      intro q i
      by_cases hq : q < m
      · rw [if_pos hq]
      · rw [if_neg hq, held_init, hold q i (by omega)]
    refine ⟨u', t', h1, h2.lag, ?_, ?_, ?_, ?_⟩
    · have : names { f with mem, qs := fun q => if q < m then f.qs q else Vq.init mem n bs, first := m } = names f := by
        funext p; simp only [names, hnm]
      rw [this]; exact h2.ren
    · intro p dq op hp
      by_cases hq : p.1 < m
      · simp only [if_pos hq] at hp; exact h2.kind p dq op hp
      · simp only [if_neg hq] at hp; cases hp
    · intro q i s hs
      simp only [hnm] at hs
      have hq : q < m := by
        refine Decidable.byContradiction fun h => ?_
        rw [hold q i (by omega)] at hs; cases hs
      simp only [if_pos hq]
      exact h2.slot q i s hs
    · intro q hq
      have hq' : ¬ q < m := by have : m ≤ q := hq; omega
      refine ⟨[], ?_⟩
      simp only [Front.at, if_neg hq']
      exact inv_init mem n bs hbs
  | crash mem =>
    obtain ⟨d1, v, h1, h2, h3⟩ := Stack.crash_run hr
    obtain ⟨u', t', h4, h5⟩ := hS.silent h1
    have hsv := h5.ren.survives (h5.lag.survives h2)
    exact ⟨Dev.fresh v, Dev.fresh v, h4.trans (Disk.Run.one (.crash u' v hsv)), Sim.init h3 mem hbs⟩
  | deliver q id ok data hq0 hb =>
    obtain ⟨d1, h1, h2, h3, h4⟩ := Stack.resp_run hr
    obtain ⟨u1, t1, h5, h6⟩ := hS.silent h1
    obtain ⟨o, ho, -, h7⟩ := h6.lag.respond (fun _ _ e => e) h2
    have ho' : o = (q, id) := ho.symm
    subst ho'
    rw [← h3] at h7
    have h8 : Sim { f with box := upd f.box (q, id) (some (ok, data)) } (Dev.complete d1 (q, id) ok) u1 t1 :=
      ⟨h7, h6.ren, h6.kind, h6.slot, h6.inv⟩
    obtain ⟨u2, t2, h9, h10⟩ := h8.silent h4
    exact ⟨u2, t2, h5.trans h9, h10⟩
  | pop q head ds v es hq0 hlen h =>
    have hsn : Sane ds := hsane q _ f.mem ds (.head _)
    have hwc : ∀ r, wanted f.mem ds = some r → ∃ id dq, es = [.dev id dq] := by
      obtain ⟨es0, hi0⟩ := hS.inv q hq0
      intro r hr
      exact wanted_called (v := f.at q) h hr hsn.2.2 hi0.small
    obtain ⟨es0, hi0⟩ := hS.inv q hq0
    obtain ⟨c1, c2, c3, c4⟩ := chain_spec h hi0.small
    have hI : ∃ es, Inv v es := ⟨_, inv_step hi0 (.pop _ v head ds es hlen h)⟩
    have hlt : ∀ i s, held (f.qs q) i = some s → s.uid < (f.qs q).popped := fun i s hs => (hi0.slot i s hs).1
    have hch : ∀ q' i s, held (f.qs q') i = some s →
        upd f.chains (q, (f.qs q).popped) (f.mem, ds) (q', s.uid) = f.chains (q', s.uid) := by
      intro q' i s hs
      refine upd_ne _ _ fun e => ?_
      rw [Prod.mk.injEq] at e
      obtain ⟨rfl, e⟩ := e
      have := hlt i s hs
      omega
    have quiet : ∀ uid hd st, es = [.returned uid hd st] → held v = held (f.qs q) → v.inflight = (f.qs q).inflight →
        uid = (f.qs q).popped → ∃ u' t', Disk.Run u
          ((FLab.popped q (f.qs q).popped f.mem ds ::
            returns { f with chains := upd f.chains (q, (f.qs q).popped) (f.mem, ds) } q v.mem es).flatMap FLab.view) u' ∧
          Sim { f with mem := v.mem, qs := upd f.qs q v, chains := upd f.chains (q, (f.qs q).popped) (f.mem, ds) } d' u' t' := by
      intro uid hd st he hh hfl huid
      subst he huid
      have hw : wanted f.mem ds = none := by
        cases hw : wanted f.mem ds with
        | none => rfl
        | some r => obtain ⟨id, dq, e⟩ := hwc r hw; cases e
      obtain ⟨u', t', h1, h2⟩ := hS.silent hr
      refine ⟨u', t', ?_, h2.lag, ?_, ?_, ?_, inv_set h2.inv hI c2 _ rfl rfl rfl⟩
      · simp only [returns, List.filterMap_cons, List.filterMap_nil, List.flatMap_cons, List.flatMap_nil, FLab.view, upd_same, hw, List.append_nil]
        exact h1
      · rw [names_same (f := f) (g := { f with mem := v.mem, qs := upd f.qs q v, chains := upd f.chains (q, (f.qs q).popped) (f.mem, ds) }) rfl hh]
        exact h2.ren
      · intro p dq op hp
        refine h2.kind p dq op ?_
        by_cases e : p.1 = q
        · simp only [e, upd_same, hfl] at hp; rw [e]; exact hp
        · simp only [upd_ne _ _ e] at hp; exact hp
      · intro q' i s hs
        have hs' : held (f.qs q') i = some s := by
          by_cases e : q' = q
          · subst e; simp only [upd_same, hh] at hs; exact hs
          · simp only [upd_ne _ _ e] at hs; exact hs
        have hfl' : (upd f.qs q v q').inflight = (f.qs q').inflight := by
          by_cases e : q' = q
          · subst e; rw [upd_same, hfl]
          · rw [upd_ne _ _ e]
        simp only [hch q' i s hs', hfl']
        exact h2.slot q' i s hs'
    generalize hm0 : (f.at q).mem = m0 at c4
    have hm0' : m0 = f.mem := hm0.symm
    subst hm0'
    cases c4 with
    | bad hh hi hb hs => exact quiet _ _ _ rfl hh hi rfl
    | done st hh hi hs => exact quiet _ _ _ rfl hh hi rfl
    | hold r id dq s hp hn hh hi hf hq hb hs =>
      have hw := wanted_issued hp hq hsn.2.2
      have hcalls : calls q [.dev id dq] = [.issue q id dq.toReq] := rfl
      rw [hcalls] at hr
      obtain ⟨d1, h1, h2, h3⟩ := Stack.issue_run hr
      obtain ⟨u1, t1, h4, h5⟩ := hS.silent h1
      have hnone : names f (q, id) = none := by
        have : held (f.qs q) id = none := hn
        simp only [names, this]; rfl
      have huid : s.uid = (f.qs q).popped := hf.uid
      have hnew : ∀ p', names f p' ≠ some (q, (f.qs q).popped) := by
        rintro ⟨a, b⟩ e
        simp only [names, Option.map_eq_some_iff, Prod.mk.injEq] at e
        obtain ⟨s', e1, rfl, e2⟩ := e
        have := hlt b s' e1
        omega
      have hlag := h5.lag.issue (fun _ _ e => e) (o := (q, id)) dq.toReq (h5.ren.free _ hnone)
      obtain ⟨h6, h7⟩ := h5.ren.issue (o := (q, (f.qs q).popped)) dq.toReq hnone hnew
      have h8 : Sim { f with mem := v.mem, qs := upd f.qs q v, chains := upd f.chains (q, (f.qs q).popped) (f.mem, ds) }
          (Disk.issue d1 (q, id) dq.toReq) (Dev.issue u1 (q, (f.qs q).popped) dq.toReq) (Dev.issue t1 (q, id) dq.toReq) := by
        refine ⟨hlag, ?_, ?_, ?_, inv_set h5.inv hI c2 _ rfl rfl rfl⟩
        · rw [names_set (f := f) (g := { f with mem := v.mem, qs := upd f.qs q v, chains := upd f.chains (q, (f.qs q).popped) (f.mem, ds) }) rfl hh,
            Option.map_some, huid]
          exact h7
        · intro p dq' op hp hop
          rcases kind_issue hop with ⟨rfl, hk⟩ | ⟨hne, op0, ho, hk⟩
          · simp only [upd_same, hi, Option.some.injEq] at hp
            subst hp; exact hk
          · refine hk _ (h5.kind p dq' op0 ?_ ho)
            by_cases e : p.1 = q
            · have e2 : p.2 ≠ id := fun e2 => hne (Prod.ext e e2)
              simp only [e, upd_same, hi, upd_ne _ _ e2] at hp
              rw [e]; exact hp
            · simp only [upd_ne _ _ e] at hp; exact hp
        · intro q' i s' hs'
          by_cases e : q' = q
          · subst e
            simp only [upd_same, hh] at hs'
            by_cases e2 : i = id
            · subst e2
              rw [upd_same, Option.some.injEq] at hs'
              subst hs'
              simp only [huid, upd_same, hi]
              exact ⟨r, dq, hp, ⟨huid, rfl, hf.ty, hf.sector, hf.data, hf.status, hf.fits, hf.len⟩, rfl, hq, hsn⟩
            · rw [upd_ne _ _ e2] at hs'
              simp only [hch q' i s' hs', upd_same, hi, upd_ne _ _ e2]
              exact h5.slot q' i s' hs'
          · simp only [upd_ne _ _ e] at hs' ⊢
            rw [hch q' i s' hs']
            exact h5.slot q' i s' hs'
      obtain ⟨u2, t2, h9, h10⟩ := h8.silent h3
      refine ⟨u2, t2, ?_, h10⟩
      have hview : (FLab.popped q (f.qs q).popped f.mem ds ::
          returns { f with chains := upd f.chains (q, (f.qs q).popped) (f.mem, ds) } q v.mem [.dev id dq]).flatMap FLab.view =
          [.issue q (f.qs q).popped dq.toReq] := by
        simp only [returns, List.filterMap_cons, List.filterMap_nil, List.flatMap_cons, List.flatMap_nil, FLab.view, hw, List.append_nil]
      rw [hview]
      have e : Dev.issue u1 (q, (f.qs q).popped) dq.toReq = Disk.issue u1 (q, (f.qs q).popped) dq.toReq := by
        cases dq <;> rfl
      rw [e] at h9
      have := (h4.trans (Disk.Run.one (.issue u1 q (f.qs q).popped dq.toReq h6))).trans h9
      simpa using this
  | handle q id ok data buf v es hq0 hb hf hd h =>
    obtain ⟨u1, t1, h1, h2⟩ := hS.silent hr
    obtain ⟨g1, g2, g3⟩ := h2.lag.handle (fun _ _ e => e) hb
    obtain ⟨op, g4, g5⟩ := g1
    cases hs : held (f.qs q) id with
    | none =>
      have : names f (q, id) = none := by simp only [names, hs]; rfl
      rw [h2.ren.free _ this] at g4; cases g4
    | some s =>
      have hk : names f (q, id) = some (q, s.uid) := by simp only [names, hs]; rfl
      obtain ⟨r, dq, p1, p2, p3, p4, p5⟩ := h2.slot q id s hs
      obtain ⟨es0, hi0⟩ := h2.inv q hq0
      obtain ⟨s', i1, i2, i3⟩ := inv_poll hi0 id dq p3
      have hss : some s' = some s := i1.symm.trans hs
      obtain rfl := Option.some.inj hss
      have hfill := hf dq p3
      obtain ⟨st, hP⟩ := poll_spec hi0.small i1 i2 (i3 buf hfill) h
      have hI : ∃ es, Inv v es := ⟨_, inv_step (dev := dev) hi0 (.poll _ v id dq buf ok es p3 hfill h)⟩
      have hA := (C37_parse_partial _ _ _).1 p1
      generalize hmc : f.chains (q, s'.uid) = mc at p1 p2 p4 p5 hA
      obtain ⟨m0, ds⟩ := mc
      simp only at p1 p2 p4 p5 hA
      have hw := wanted_issued p1 p4 p5.2.2
      have hkind := h2.kind (q, id) dq op p3 g4
      obtain ⟨ok', hok'⟩ : ∃ ok', decide (some st = some S_OK) = ok' := ⟨_, rfl⟩
      have hsty := hP.status
      have hok : ok' = true → ok = true := by
        intro e
        rw [← hok', decide_eq_true_eq, Option.some.injEq] at e
        rw [hsty] at e
        cases ok with
        | true => rfl
        | false => rw [if_neg (by simp)] at e; cases e
      have hnoin : s'.ty ≠ .in → ok' = ok := by
        intro hne
        rw [← hok', hsty]
        cases ok with
        | true => rw [if_pos ⟨rfl, fun e => absurd e hne⟩]; rfl
        | false => rw [if_neg (by simp)]; rfl
      have hview : (returns f q v.mem es).flatMap FLab.view = [.resp q s'.uid ok' (found v.mem ds dq.toReq ok')] := by
        rw [hP.ev]
        simp only [returns, List.filterMap_cons, List.filterMap_nil, List.flatMap_cons, List.flatMap_nil, FLab.view, hmc, hw, List.append_nil, hok']
      rcases h2.ren.complete hk ⟨op, g4, g5⟩ hok with ⟨r1, r2, r3⟩ | ⟨r1, snap, r2⟩
      · have hfound : found v.mem ds dq.toReq ok' = u1.result (q, s'.uid) ok' := by
          cases dq with
          | read sec cnt =>
            cases ok' with
            | false =>
              obtain ⟨op', o1, -⟩ := r1
              rw [Dev.result_eq o1]
              cases op' <;> rfl
            | true =>
              have hokt := hok rfl
              subst hokt
              rw [r2 rfl, g2]
              obtain ⟨d1, d2⟩ := hd rfl
              have hcnt : cnt = data.length := by
                rw [Dev.result_eq g4] at g2
                cases hkind
                rw [← g2]; simp [Op.result]
              have hst : st = S_OK := by simpa using hok'
              obtain ⟨q1, q2, q3⟩ := p4
              have hty : s'.ty = .in := p2.ty.trans q1
              obtain ⟨e1, e2⟩ := hP.inside hst hty
              have hdat : s'.data = dataOf ds := p2.data.trans hA.data
              rw [hdat] at e1 e2
              have hlen : buf.length = (places (dataOf ds)).length := by
                have : buf.length = cnt * 512 := hfill
                rw [places_length, this, q3, hA.data, Nat.mod_eq_of_lt p5.2.2]
              obtain ⟨sd, b1, _, _, _, b5⟩ := hA.status
              have hsd : s'.status = sd.addr := p2.status.trans b5
              rw [hcnt]
              refine found_read d1 d2 hlen (fun i a hia => ?_) sec
              have hil : i < buf.length := by
                have := (List.getElem?_eq_some_iff.1 hia).1
                omega
              rw [e2 p5.1 i a hia (fun e => p5.2.1 sd b1 (by rw [← hsd, ← e]; exact List.mem_of_getElem? hia))]
              simp [List.getD_eq_getElem?_getD, List.getElem?_append_left hil]
          | write sec cnt dt =>
            rw [r2 (hnoin (by rw [p2.ty, p4.1]; decide)), Dev.result_eq g4]
            cases hkind
            rfl
          | flush =>
            have : r.ty = .flush := p4
            rw [r2 (hnoin (by rw [p2.ty, this]; decide)), Dev.result_eq g4]
            cases hkind
            rfl
        refine ⟨u1.complete (q, s'.uid) ok', t1.complete (q, id) ok, ?_, g3, ?_, ?_, ?_, inv_set h2.inv hI hP.ok _ rfl rfl rfl⟩
        · rw [hview, hfound]
          exact h1.trans (Disk.Run.one (.respond u1 q s'.uid ok' r1))
        · rw [names_set (f := f) (g := { f with mem := v.mem, qs := upd f.qs q v, box := upd f.box (q, id) none }) rfl hP.held, Option.map_none]
          exact r3
        · intro p dq' op' hp hop
          have hne : p ≠ (q, id) := fun e => by rw [e] at hop; simp [Dev.complete] at hop
          simp only [Dev.complete, upd_ne _ _ hne] at hop
          refine h2.kind p dq' op' ?_ hop
          by_cases e : p.1 = q
          · have e2 : p.2 ≠ id := fun e2 => hne (Prod.ext e e2)
            simp only [e, upd_same, hP.inflight, upd_ne _ _ e2] at hp
            rw [e]; exact hp
          · simp only [upd_ne _ _ e] at hp; exact hp
        · intro q' i s hs
          by_cases e : q' = q
          · subst e
            simp only [upd_same, hP.held] at hs
            have e2 : i ≠ id := fun e2 => by rw [e2, upd_same] at hs; cases hs
            rw [upd_ne _ _ e2] at hs
            simp only [upd_same, hP.inflight, upd_ne _ _ e2]
            exact h2.slot q' i s hs
          · simp only [upd_ne _ _ e] at hs ⊢
            exact h2.slot q' i s hs
      · exfalso
        rw [r2, Option.some.injEq] at g4
        subst g4
        cases hkind
        have : r.ty = .flush := p4
        exact r1 (hnoin (by rw [p2.ty, this]; decide))

theorem front_sim {dev : Bytes} {n bs : Nat} {mem : GMem} {f : Front} {ls : List FLab} {es : List (Ev Bytes)} (hbs : bs < 2 ^ 32)
    (h : FRun dev n bs mem ls es f) : ∀ {v : Nat → Bytes} {d : Disk Bytes}, (∀ q k m ds, FLab.popped q k m ds ∈ ls → Sane ds) →
    Disk.Run (Dev.fresh v) es d → ∃ u t, Disk.Run (Dev.fresh v) (ls.flatMap FLab.view) u ∧ Sim f d u t := by
  induction h with
  | nil =>
    intro v d _ hr
    exact ⟨Dev.fresh v, Dev.fresh v, .nil _, Sim.init ((Stack.AtRest.fresh v).silent hr) mem hbs⟩
  | step hr hst ih =>
    intro v d hs hd
    obtain ⟨d0, h1, h2⟩ := hd.split _ _ rfl
    obtain ⟨u, t, h3, h4⟩ := ih (fun q k m ds hm => hs q k m ds (List.mem_append_left _ hm)) h1
    obtain ⟨u', t', h5, h6⟩ := step_sim hbs hst (fun q k m ds hm => hs q k m ds (List.mem_append_right _ hm)) h2 h4
    exact ⟨u', t', by rw [List.flatMap_append]; exact h3.trans h5, h6⟩

end Verif.Vhost
