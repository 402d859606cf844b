import Verif.Model.ArchiveRead
import Verif.Proof.ArchiveDemo

/-! Invariants of the archive stripe source and of the export. -/

set_option maxRecDepth 8000

namespace Verif.Archive
open Verif Verif.Crypt Verif.Disk

variable {P : Prims} {src : Src} {store : Name → Option Bytes} {b0 : Nat → Bytes}

/-- The requests waiting for an object. -/
def Rd.waiting (s : Rd) : List (Nat × Nat) := s.pending.flatMap (·.stripes)

/-- Where the requests are: delivered, finished, waiting, or (`ex`, with hash `sha`) being answered. -/
structure Led (P : Prims) (src : Src) (store : Name → Option Bytes) (b0 : Nat → Bytes) (out : List (Nat × Bool × Nat))
    (ex : List (Nat × Nat)) (sha : Bytes) (s : Rd) : Prop where
  names : (s.pending.map (·.name)).Nodup
  key : ∀ p ∈ s.pending, p.name = objectKey p.sha
  wait : ∀ p ∈ s.pending, ∀ x ∈ p.stripes, s.req x.2 = x.1 ∧ tableOf src.table x.1 = some (.obj p.sha)
  extra : ∀ x ∈ ex, s.req x.2 = x.1 ∧ tableOf src.table x.1 = some (.obj sha)
  ledger : (out.map (·.2.2) ++ (s.finished.map (·.2.2) ++ (ex.map (·.2) ++ s.waiting.map (·.2)))).Perm (List.range s.nreq)
  ids : ∀ x ∈ out ++ s.finished, s.req x.2.2 = x.1
  len : ∀ r, (s.bufs r).length = (b0 r).length
  good : ∀ x ∈ out ++ s.finished, x.2.1 = true → readStripe P src store x.1 (b0 x.2.2).length = .ok (s.bufs x.2.2)

theorem led_init (b0 : Nat → Bytes) : Led P src store b0 [] [] [] { bufs := b0 } :=
  ⟨by simp, by simp, by simp, by simp, by simp [Rd.waiting], by simp, fun _ => rfl, by simp⟩

theorem finishFetch_length {id len : Nat} {data sha b : Bytes} (h : finishFetch P src id len data sha = .ok b) : b.length = len := by
  simp only [finishFetch] at h
  split at h
  · simp at h
  · split at h
    · simp at h
    · split at h
      · simp at h
      · split at h
        · simp at h
        · simp only [Except.ok.injEq] at h
          subst h
          simp; omega

theorem finishOne_led {out : List (Nat × Bool × Nat)} {x : Nat × Nat} {ex : List (Nat × Nat)} {sha data : Bytes} {s : Rd}
    (h : Led P src store b0 out (x :: ex) sha s) (hd : store (objectKey sha) = some data) :
    Led P src store b0 out ex sha (Rd.finishOne P src data sha s x) := by
  obtain ⟨e1, e2⟩ := h.extra x (.head _)
  have hl : ∀ ok, (out.map (·.2.2) ++ ((s.finished ++ [(x.1, ok, x.2)]).map (fun y : Nat × Bool × Nat => y.2.2) ++ (ex.map (·.2) ++ s.waiting.map (·.2)))).Perm
      (List.range s.nreq) := by
    intro ok
    refine List.Perm.trans ?_ h.ledger
    simp
  unfold Rd.finishOne
  split
  · refine ⟨h.names, h.key, h.wait, fun y hy => h.extra y (.tail _ hy), hl _, ?_, h.len, ?_⟩
    · intro y hy
      simp only [← List.append_assoc, List.mem_append (t := [_]), List.mem_singleton] at hy
      rcases hy with hy | rfl
      · exact h.ids y (by simpa using hy)
      · exact e1
    · intro y hy ht
      simp only [← List.append_assoc, List.mem_append (t := [_]), List.mem_singleton] at hy
      rcases hy with hy | rfl
      · exact h.good y (by simpa using hy) ht
      · simp at ht
  · rename_i b hb
    have hlen := finishFetch_length hb
    have hnd : ∀ y ∈ out ++ s.finished, y.2.2 ≠ x.2 := by
      intro y hy he
      have hn : (out.map (·.2.2) ++ (s.finished.map (·.2.2) ++ ((x :: ex).map (·.2) ++ s.waiting.map (·.2)))).Nodup :=
        h.ledger.nodup_iff.2 List.nodup_range
      rw [← List.append_assoc, List.nodup_append] at hn
      refine hn.2.2 y.2.2 ?_ x.2 ?_ he
      · rw [← List.map_append]; exact List.mem_map_of_mem hy
      · simp
    refine ⟨h.names, h.key, h.wait, fun y hy => h.extra y (.tail _ hy), hl _, ?_, ?_, ?_⟩
    · intro y hy
      simp only [← List.append_assoc, List.mem_append (t := [_]), List.mem_singleton] at hy
      rcases hy with hy | rfl
      · exact h.ids y (by simpa using hy)
      · exact e1
    · intro r
      by_cases hr : r = x.2
      · subst hr; simp [hlen, h.len]
      · simp only [upd_ne _ _ hr]; exact h.len r
    · intro y hy ht
      simp only [← List.append_assoc, List.mem_append (t := [_]), List.mem_singleton] at hy
      rcases hy with hy | rfl
      · have hy' : y ∈ out ++ s.finished := by simpa using hy
        rw [h.good y hy' ht]
        simp only [upd_ne _ _ (hnd y hy')]
      · simp only [readStripe, e2, hd, upd_same]
        rw [← h.len]; exact hb

theorem finishAll_led {out : List (Nat × Bool × Nat)} {xs : List (Nat × Nat)} {sha data : Bytes} {s : Rd}
    (h : Led P src store b0 out xs sha s) (hd : store (objectKey sha) = some data) :
    Led P src store b0 out [] sha (xs.foldl (Rd.finishOne P src data sha) s) ∧
    (xs.foldl (Rd.finishOne P src data sha) s).pending = s.pending ∧ (xs.foldl (Rd.finishOne P src data sha) s).gets = s.gets ∧
    (xs.foldl (Rd.finishOne P src data sha) s).nreq = s.nreq ∧ (xs.foldl (Rd.finishOne P src data sha) s).req = s.req := by
  induction xs generalizing s with
  | nil => exact ⟨h, rfl, rfl, rfl, rfl⟩
  | cons x xs ih =>
    have h1 : (Rd.finishOne P src data sha s x).pending = s.pending ∧ (Rd.finishOne P src data sha s x).gets = s.gets ∧
        (Rd.finishOne P src data sha s x).nreq = s.nreq ∧ (Rd.finishOne P src data sha s x).req = s.req := by
      unfold Rd.finishOne; split <;> exact ⟨rfl, rfl, rfl, rfl⟩
    obtain ⟨i1, i2, i3, i4, i5⟩ := ih (finishOne_led h hd)
    exact ⟨i1, i2.trans h1.1, i3.trans h1.2.1, i4.trans h1.2.2.1, i5.trans h1.2.2.2⟩

theorem Led.sha {out : List (Nat × Bool × Nat)} {sha : Bytes} (sha' : Bytes) {s : Rd} (h : Led P src store b0 out [] sha s) :
    Led P src store b0 out [] sha' s :=
  ⟨h.names, h.key, h.wait, by simp, h.ledger, h.ids, h.len, h.good⟩

/-- Taking one entry out of a list with distinct keys. -/
theorem perm_of_find {l : List Pend} {n : Name} {p : Pend} (hn : (l.map (·.name)).Nodup) (hf : l.find? (·.name == n) = some p) :
    l.Perm (p :: l.filter (·.name != n)) ∧ p.name = n ∧ p ∈ l := by
  have hp : p.name = n := by have := List.find?_some hf; simpa using this
  have hm := List.mem_of_find?_eq_some hf
  refine ⟨?_, hp, hm⟩
  clear hf
  induction l with
  | nil => simp at hm
  | cons q l ih =>
    simp only [List.map_cons, List.nodup_cons] at hn
    rcases List.mem_cons.1 hm with rfl | hm
    · have : l.filter (·.name != n) = l := by
        rw [List.filter_eq_self]
        intro q hq
        simp only [bne_iff_ne, ne_eq]
        intro e
        exact hn.1 (by rw [hp, ← e]; exact List.mem_map_of_mem hq)
      simp [hp, this]
    · have hq : q.name ≠ n := by
        intro e
        exact hn.1 (by rw [e, ← hp]; exact List.mem_map_of_mem hm)
      rw [List.filter_cons_of_pos (by simpa using hq)]
      exact ((ih hn.2 hm).cons q).trans (.swap _ _ _)

theorem complete_led {out : List (Nat × Bool × Nat)} {sha : Bytes} {s : Rd} (h : Led P src store b0 out [] sha s)
    (c : Name × Option Bytes) (hc : ∀ d, c.2 = some d → store c.1 = some d) :
    Led P src store b0 out [] sha (Rd.complete P src s c) ∧
    (Rd.complete P src s c).pending = s.pending.filter (·.name != c.1) ∧ (Rd.complete P src s c).gets = s.gets ∧
    (Rd.complete P src s c).nreq = s.nreq ∧ (Rd.complete P src s c).req = s.req := by
  unfold Rd.complete
  cases hf : s.pending.find? (·.name == c.1) with
  | none =>
    refine ⟨h, ?_, rfl, rfl, rfl⟩
    rw [eq_comm, List.filter_eq_self]
    intro p hp
    simpa using List.find?_eq_none.1 hf p hp
  | some p =>
    obtain ⟨hperm, hp, hm⟩ := perm_of_find h.names hf
    simp only
    have hsub : ∀ q, q ∈ s.pending.filter (·.name != c.1) → q ∈ s.pending := fun q hq => (List.mem_filter.1 hq).1
    have hl : Led P src store b0 out p.stripes p.sha { s with pending := s.pending.filter (·.name != c.1) } := by
      refine ⟨(List.filter_sublist.map _).nodup h.names, fun q hq => h.key q (hsub q hq), fun q hq => h.wait q (hsub q hq),
        h.wait p hm, ?_, h.ids, h.len, h.good⟩
      refine List.Perm.trans ?_ h.ledger
      refine List.Perm.append_left _ (List.Perm.append_left _ ?_)
      simp only [List.map_nil, List.nil_append]
      rw [← List.map_append]
      refine List.Perm.map _ ?_
      exact ((List.Perm.flatMap_right (·.stripes) hperm).symm)
    split
    · rename_i data hd
      have hs := hc data hd
      rw [← hp, h.key p hm] at hs
      obtain ⟨i1, i2, i3, i4, i5⟩ := finishAll_led hl hs
      exact ⟨i1.sha _, i2, i3, i4, i5⟩
    · refine ⟨⟨hl.names, hl.key, hl.wait, by simp, ?_, ?_, hl.len, ?_⟩, rfl, rfl, rfl, rfl⟩
      · refine List.Perm.trans ?_ hl.ledger
        simp [List.map_append, Function.comp_def, Rd.waiting]
      · intro y hy
        simp only [← List.append_assoc, List.mem_append (t := List.map _ _)] at hy
        rcases hy with hy | hy
        · exact hl.ids y hy
        · simp only [List.mem_map] at hy
          obtain ⟨x, hx, rfl⟩ := hy
          exact (hl.extra x hx).1
      · intro y hy ht
        simp only [← List.append_assoc, List.mem_append (t := List.map _ _)] at hy
        rcases hy with hy | hy
        · exact hl.good y hy ht
        · simp only [List.mem_map] at hy
          obtain ⟨x, hx, rfl⟩ := hy
          simp at ht

theorem completes_led {out : List (Nat × Bool × Nat)} {sha : Bytes} (cs : List (Name × Option Bytes)) {s : Rd}
    (h : Led P src store b0 out [] sha s) (hc : ∀ n d, (n, some d) ∈ cs → store n = some d) :
    Led P src store b0 out [] sha (cs.foldl (Rd.complete P src) s) ∧
    (cs.foldl (Rd.complete P src) s).pending = s.pending.filter (fun p => p.name ∉ cs.map (·.1)) ∧
    (cs.foldl (Rd.complete P src) s).gets = s.gets ∧ (cs.foldl (Rd.complete P src) s).nreq = s.nreq ∧
    (cs.foldl (Rd.complete P src) s).req = s.req := by
  induction cs generalizing s with
  | nil => exact ⟨h, (List.filter_eq_self.2 (by simp)).symm, rfl, rfl, rfl⟩
  | cons c cs ih =>
    obtain ⟨c1, c2, c3, c4, c5⟩ := complete_led h c (fun d hd => hc c.1 d (by rw [← hd]; exact .head _))
    obtain ⟨i1, i2, i3, i4, i5⟩ := ih c1 (fun n d hm => hc n d (.tail _ hm))
    refine ⟨i1, ?_, i3.trans c3, i4.trans c4, i5.trans c5⟩
    simp only [List.foldl_cons]
    rw [i2, c2, List.filter_filter]
    congr 1
    funext p
    simp only [List.map_cons, List.mem_cons, not_or, bne, Bool.decide_and, decide_not]
    rw [Bool.and_comm, Bool.beq_eq_decide_eq]

structure RInv (P : Prims) (src : Src) (store : Name → Option Bytes) (b0 : Nat → Bytes) (out : List (Nat × Bool × Nat)) (s : Rd) :
    Prop where
  led : Led P src store b0 out [] [] s
  gets : s.gets.Perm (s.pending.map (·.name))

theorem filter_perm {l : List Pend} {a b : List Name} (hn : (l.map (·.name)).Nodup) (h : (a ++ b).Perm (l.map (·.name))) :
    b.Perm ((l.filter (fun p => p.name ∉ a)).map (·.name)) := by
  have hab : (a ++ b).Nodup := h.nodup_iff.2 hn
  obtain ⟨ha, hb, hd⟩ := List.nodup_append.1 hab
  have h1 : (l.filter (fun p => p.name ∉ a)).map (·.name) = (l.map (·.name)).filter (fun n => n ∉ a) := by
    rw [List.filter_map]; rfl
  rw [h1]
  refine List.Perm.trans ?_ (h.filter (fun n => decide (n ∉ a)))
  rw [List.filter_append, List.filter_eq_nil_iff.2 (by simp), List.nil_append, List.filter_eq_self.2]
  intro n hn'
  simp only [decide_eq_true_eq]
  exact fun hna => hd n hna n hn' rfl

theorem poll_inv {out : List (Nat × Bool × Nat)} {s : Rd} (h : RInv P src store b0 out s) {cs : List (Name × Option Bytes)}
    {rest : List Name} (ha : Answers store s.gets cs rest) :
    RInv P src store b0 (out ++ (s.poll P src cs rest).1) (s.poll P src cs rest).2 ∧ (s.poll P src cs rest).2.finished = [] ∧
    (s.poll P src cs rest).2.nreq = s.nreq ∧ (s.poll P src cs rest).2.req = s.req := by
  have h0 : Led P src store b0 out [] [] { s with gets := rest } := ⟨h.led.names, h.led.key, h.led.wait, h.led.extra, h.led.ledger, h.led.ids, h.led.len, h.led.good⟩
  obtain ⟨i1, i2, i3, i4, i5⟩ := completes_led cs h0 ha.2
  refine ⟨⟨⟨i1.names, i1.key, i1.wait, i1.extra, ?_, ?_, i1.len, ?_⟩, ?_⟩, rfl, i4, i5⟩
  · refine List.Perm.trans ?_ i1.ledger
    simp only [Rd.poll, List.map_append, List.map_nil, List.nil_append, List.append_assoc]
    exact List.Perm.refl _
  · simpa [Rd.poll] using i1.ids
  · simpa [Rd.poll] using i1.good
  · show (cs.foldl (Rd.complete P src) { s with gets := rest }).gets.Perm ((cs.foldl (Rd.complete P src) { s with gets := rest }).pending.map (·.name))
    rw [i3, i2]
    exact filter_perm h.led.names (ha.1.symm.trans h.gets)

theorem range_succ_perm {l : List Nat} {n : Nat} (h : l.Perm (List.range n)) : (l ++ [n]).Perm (List.range (n + 1)) := by
  rw [List.range_succ]; exact h.append_right _

theorem map_names {l : List Pend} {f : Pend → Pend} (hf : ∀ p, (f p).name = p.name) : (l.map f).map (·.name) = l.map (·.name) := by
  rw [List.map_map]; exact List.map_congr_left fun p _ => hf p

theorem addTo_perm {l : List Pend} {n : Name} {x : Nat × Nat} (hn : (l.map (·.name)).Nodup) (hex : ∃ p ∈ l, p.name = n) :
    ((l.map fun p => if p.name = n then { p with stripes := p.stripes ++ [x] } else p).flatMap (·.stripes)).Perm
      (l.flatMap (·.stripes) ++ [x]) := by
  induction l with
  | nil => simp at hex
  | cons q l ih =>
    simp only [List.map_cons, List.nodup_cons] at hn
    by_cases hq : q.name = n
    · have : (l.map fun p => if p.name = n then { p with stripes := p.stripes ++ [x] } else p) = l := by
        have e : (l.map fun p => if p.name = n then { p with stripes := p.stripes ++ [x] } else p) = l.map (fun p => p) := by
          refine List.map_congr_left fun p hp => ?_
          rw [if_neg]
          intro e; exact hn.1 (by rw [hq, ← e]; exact List.mem_map_of_mem hp)
        rw [e, List.map_id']
      simp only [List.map_cons, hq, if_true, this, List.flatMap_cons, List.append_assoc]
      exact List.Perm.append_left _ List.perm_append_comm
    · obtain ⟨p, hp, hpn⟩ := hex
      rcases List.mem_cons.1 hp with rfl | hp
      · exact absurd hpn hq
      · simp only [List.map_cons, hq, if_false, List.flatMap_cons, List.append_assoc]
        exact List.Perm.append_left _ (ih hn.2 ⟨p, hp, hpn⟩)

theorem request_inv {out : List (Nat × Bool × Nat)} {s : Rd} (h : RInv P src store b0 out s) (id : Nat) :
    RInv P src store b0 out (s.request src id) ∧ (s.request src id).nreq = s.nreq + 1 ∧ (s.request src id).req = upd s.req s.nreq id := by
  have hmem : ∀ r, r ∈ out.map (·.2.2) ++ (s.finished.map (·.2.2) ++ ([].map (fun x : Nat × Nat => x.2) ++ s.waiting.map (·.2))) → r < s.nreq :=
    fun r hr => List.mem_range.1 (h.led.ledger.mem_iff.1 hr)
  have hreq : ∀ r, r < s.nreq → upd s.req s.nreq id r = s.req r := fun r hr => upd_ne _ _ (Nat.ne_of_lt hr)
  have hwlt : ∀ p ∈ s.pending, ∀ x ∈ p.stripes, x.2 < s.nreq := by
    intro p hp x hx
    refine hmem _ ?_
    simp only [List.map_nil, List.nil_append, List.mem_append]
    exact .inr (.inr (List.mem_map_of_mem (List.mem_flatMap.2 ⟨p, hp, hx⟩)))
  have holt : ∀ x ∈ out ++ s.finished, x.2.2 < s.nreq := by
    intro x hx
    refine hmem _ ?_
    rw [← List.append_assoc, ← List.map_append]
    exact List.mem_append_left _ (List.mem_map_of_mem hx)
  have hids : ∀ x ∈ out ++ s.finished, upd s.req s.nreq id x.2.2 = x.1 := fun x hx => by
    rw [hreq _ (holt x hx)]; exact h.led.ids x hx
  have hwait : ∀ p ∈ s.pending, ∀ x ∈ p.stripes, upd s.req s.nreq id x.2 = x.1 ∧ tableOf src.table x.1 = some (.obj p.sha) :=
    fun p hp x hx => ⟨by rw [hreq _ (hwlt p hp x hx)]; exact (h.led.wait p hp x hx).1, (h.led.wait p hp x hx).2⟩
  have hfill : tableOf src.table id = some .zero ∨ tableOf src.table id = none → 
      RInv P src store b0 out { s with nreq := s.nreq + 1, req := upd s.req s.nreq id, bufs := upd s.bufs s.nreq (zeros (s.bufs s.nreq).length), finished := s.finished ++ [(id, true, s.nreq)] } := by
    intro ht
    refine ⟨⟨h.led.names, h.led.key, hwait, by simp, ?_, ?_, ?_, ?_⟩, h.gets⟩
    · refine List.Perm.trans ?_ (range_succ_perm h.led.ledger)
      simp only [List.map_append, List.map_cons, List.map_nil, List.nil_append, List.append_assoc]
      refine List.Perm.append_left _ (List.Perm.append_left _ ?_)
      exact List.perm_append_comm
    · intro x hx
      simp only [← List.append_assoc, List.mem_append (t := [_]), List.mem_singleton] at hx
      rcases hx with hx | rfl
      · exact hids x hx
      · simp
    · intro r
      by_cases hr : r = s.nreq
      · subst hr; simp [h.led.len]
      · simp only [upd_ne _ _ hr]; exact h.led.len r
    · intro x hx hok
      simp only [← List.append_assoc, List.mem_append (t := [_]), List.mem_singleton] at hx
      rcases hx with hx | rfl
      · rw [h.led.good x hx hok]
        simp only [upd_ne _ _ (Nat.ne_of_lt (holt x hx))]
      · simp only [upd_same, h.led.len]
        rcases ht with ht | ht <;> simp only [readStripe, ht]
  unfold Rd.request
  simp only
  cases ht : tableOf src.table id with
  | none => exact ⟨hfill (.inr ht), rfl, rfl⟩
  | some v =>
    cases v with
    | zero => exact ⟨hfill (.inl ht), rfl, rfl⟩
    | obj sha =>
      simp only [Rd.startFetch]
      split
      · rename_i hany
        refine ⟨⟨⟨?_, ?_, ?_, by simp, ?_, hids, h.led.len, h.led.good⟩, ?_⟩, rfl, rfl⟩
        · rw [map_names (fun p => by split <;> rfl)]; exact h.led.names
        · intro p hp
          simp only [List.mem_map] at hp
          obtain ⟨q, hq, rfl⟩ := hp
          split
          · exact h.led.key q hq
          · exact h.led.key q hq
        · intro p hp x hx
          simp only [List.mem_map] at hp
          obtain ⟨q, hq, rfl⟩ := hp
          split at hx
          · rename_i hqn
            simp only [hqn, if_true]
            simp only [List.mem_append, List.mem_singleton] at hx
            rcases hx with hx | rfl
            · exact hwait q hq x hx
            · refine ⟨upd_same _ _ _, ?_⟩
              rw [h.led.key q hq] at hqn
              rw [objectKey_inj hqn]; exact ht
          · rename_i hqn
            simp only [hqn, if_false]
            exact hwait q hq x hx
        · refine List.Perm.trans ?_ (range_succ_perm h.led.ledger)
          simp only [List.map_nil, List.nil_append, List.append_assoc]
          refine List.Perm.append_left _ (List.Perm.append_left _ ?_)
          have := addTo_perm (x := (id, s.nreq)) h.led.names (show ∃ p ∈ s.pending, p.name = objectKey sha by simpa using hany)
          have := this.map (·.2)
          simpa [Rd.waiting] using this
        · show s.gets.Perm _
          rw [map_names (fun p => by split <;> rfl)]; exact h.gets
      · rename_i hany
        have hno : ∀ p ∈ s.pending, p.name ≠ objectKey sha := by simpa using hany
        refine ⟨⟨⟨?_, ?_, ?_, by simp, ?_, hids, h.led.len, h.led.good⟩, ?_⟩, rfl, rfl⟩
        · simp only [List.map_append, List.map_cons, List.map_nil]
          rw [List.nodup_append]
          refine ⟨h.led.names, by simp, ?_⟩
          intro a ha b hb e
          simp only [List.mem_map] at ha
          obtain ⟨p, hp, rfl⟩ := ha
          simp only [List.mem_singleton] at hb
          exact hno p hp (e.trans hb)
        · intro p hp
          rcases List.mem_append.1 hp with hp | hp
          · exact h.led.key p hp
          · simp only [List.mem_singleton] at hp; subst hp; rfl
        · intro p hp x hx
          rcases List.mem_append.1 hp with hp | hp
          · exact hwait p hp x hx
          · simp only [List.mem_singleton] at hp; subst hp
            simp only [List.mem_singleton] at hx; subst hx
            exact ⟨upd_same _ _ _, ht⟩
        · refine List.Perm.trans ?_ (range_succ_perm h.led.ledger)
          simp [Rd.waiting]
        · simp only [List.map_append, List.map_cons, List.map_nil]
          exact h.gets.append_right _

theorem rrun_inv {out : List (Nat × Bool × Nat)} {s : Rd} (h : RRun P src store { bufs := b0 } out s) : RInv P src store b0 out s := by
  induction h with
  | nil => exact ⟨led_init b0, by simp⟩
  | request h id ih => exact (request_inv ih id).1
  | poll h cs rest ha ih => exact (poll_inv ih ha).1

end Verif.Archive
