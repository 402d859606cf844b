import Verif.Proof.Lend

/-! # Memory lent to the kernel: the two front ends, and code that waits -/

namespace Verif.Lend

/-! ## The vhost front end -/

structure FInv (f : Front) (k : Ledger) : Prop where
  bufs : ∀ (i : Nat) (s : Slot), f.slots[i]? = some s → k.size s.buf = some s.len ∧ s.buf < f.next
  inj : ∀ (i j : Nat) (s t : Slot), f.slots[i]? = some s → f.slots[j]? = some t → s.buf = t.buf → i = j
  fresh : ∀ b, f.next ≤ b → k.size b = none
  lent : ∀ c i m, k.lent c i = some m → c = 0 ∧ i ∈ f.flight ∧
    ∃ s : Slot, f.slots[i]? = some s ∧ s.used = true ∧ ∀ b len, m = some (b, len) → b = s.buf
  done : ∀ p ∈ f.done, k.lent 0 p.1 = none

theorem FInv.quiet {f : Front} {k : Ledger} (h : FInv f k) {i : Nat} {s : Slot} (hs : f.slots[i]? = some s)
    (hn : k.lent 0 i = none) : k.quiet s.buf := by
  intro c j len hl
  obtain ⟨rfl, -, t, ht, -, hb⟩ := h.lent c j _ hl
  have := h.inj i j s t hs ht (hb _ _ rfl)
  rw [this, hl] at hn; cases hn

/-- What a free slot has to do with the ledger. -/
theorem getSlot_spec {f f' : Front} {k : Ledger} (h : FInv f k) (hd : f.done = []) {len i b : Nat} {read : Bool} {es : List Ev}
    (hg : f.getSlot len read = (f', es, i, b)) :
    Fine k es ∧ FInv f' (run k es) ∧ (run k es).lent = k.lent ∧ k.lent 0 i = none ∧ f'.flight = f.flight ∧ f'.done = [] ∧
      f'.gone = f.gone ∧ ∃ s, f'.slots[i]? = some s ∧ s.used = true ∧ s.buf = b ∧ len ≤ s.len := by
  unfold Front.getSlot at hg
  split at hg
  · rename_i j hj
    simp only [Prod.mk.injEq] at hg
    obtain ⟨rfl, rfl, rfl, rfl⟩ := hg
    rw [List.findIdx?_eq_some_iff_getElem] at hj
    obtain ⟨hlt, hp, -⟩ := hj
    simp only [ge_iff_le, Bool.and_eq_true, decide_eq_true_eq, Bool.not_eq_true'] at hp
    have hs : f.slots[j]? = some f.slots[j] := List.getElem?_eq_getElem hlt
    have hnone : k.lent 0 j = none := by
      cases hl : k.lent 0 j with
      | none => rfl
      | some m =>
        obtain ⟨-, -, t, ht, hu, -⟩ := h.lent 0 j m hl
        rw [hs] at ht; cases ht; rw [hp.2] at hu; cases hu
    have hget : ∀ (x : Nat) (s' : Slot), (f.slots.modify j fun s => { s with used := true, read := read })[x]? = some s' →
        ∃ s : Slot, f.slots[x]? = some s ∧ s'.buf = s.buf ∧ s'.len = s.len ∧ (s.used = true → s'.used = true) := by
      intro x s' hx
      rw [List.getElem?_modify] at hx
      cases hy : f.slots[x]? with
      | none => rw [hy] at hx; cases hx
      | some s =>
        rw [hy] at hx
        simp only [Option.map_eq_map, Option.map_some, Option.some.injEq] at hx
        refine ⟨s, rfl, ?_⟩
        subst hx
        by_cases hjx : j = x <;> simp [hjx]
    refine ⟨trivial, ⟨?_, ?_, h.fresh, ?_, ?_⟩, rfl, hnone, rfl, hd, rfl, ?_⟩
    · intro x s' hx
      obtain ⟨s, hs', e1, e2, -⟩ := hget x s' hx
      rw [e1, e2]; exact h.bufs x s hs'
    · intro x y s' t' hx hy he
      obtain ⟨s, hs', e1, -, -⟩ := hget x s' hx
      obtain ⟨t, ht', e2, -, -⟩ := hget y t' hy
      exact h.inj x y s t hs' ht' (by rw [← e1, ← e2]; exact he)
    · intro c x m hm
      obtain ⟨h1, h2, s, h3, h4, h5⟩ := h.lent c x m hm
      refine ⟨h1, h2, _, by simp only [List.getElem?_modify, h3]; rfl, ?_, ?_⟩
      · by_cases hjx : j = x <;> simp [hjx, h4]
      · intro b len hb
        rw [h5 b len hb]
        by_cases hjx : j = x <;> simp [hjx]
    · intro p hp'; simp [hd] at hp'
    · refine ⟨{ f.slots[j] with used := true, read := read }, ?_, rfl, ?_, hp.1⟩
      · simp only [List.getElem?_modify, hs, Option.map_eq_map, Option.map_some, if_true]
      · simp [hlt]
  · simp only [Prod.mk.injEq] at hg
    obtain ⟨rfl, rfl, rfl, rfl⟩ := hg
    have hfr := h.fresh f.next (Nat.le_refl _)
    have hget : ∀ (x : Nat) (s' : Slot), (f.slots ++ [⟨true, read, f.next, len⟩])[x]? = some s' →
        f.slots[x]? = some s' ∨ (x = f.slots.length ∧ s' = ⟨true, read, f.next, len⟩) := by
      intro x s' hx
      rw [List.getElem?_append] at hx
      split at hx
      · exact .inl hx
      · rename_i hge
        right
        have : x - f.slots.length = 0 := by
          cases hq : x - f.slots.length with
          | zero => rfl
          | succ n => rw [hq] at hx; simp at hx
        rw [this] at hx
        simp only [List.getElem?_cons_zero, Option.some.injEq] at hx
        exact ⟨by omega, hx.symm⟩
    refine ⟨⟨hfr, trivial⟩, ⟨?_, ?_, ?_, ?_, ?_⟩, rfl, ?_, rfl, hd, rfl, ?_⟩
    · intro x s' hx
      simp only [run_cons, run_nil, Ledger.next]
      rcases hget x s' hx with hx | ⟨-, rfl⟩
      · have := h.bufs x s' hx
        exact ⟨by rw [if_neg (by omega)]; exact this.1, by omega⟩
      · exact ⟨by simp, Nat.lt_succ_self _⟩
    · intro x y s' t' hx hy he
      rcases hget x s' hx with hx | ⟨ex, rfl⟩ <;> rcases hget y t' hy with hy | ⟨ey, rfl⟩
      · exact h.inj x y s' t' hx hy he
      · have := (h.bufs x s' hx).2; simp only at he; omega
      · have := (h.bufs y t' hy).2; simp only at he; omega
      · omega
    · intro b hb
      simp only [run_cons, run_nil, Ledger.next]
      rw [if_neg (by simp only at hb; omega)]
      exact h.fresh b (by simp only at hb; omega)
    · intro c x m hm
      obtain ⟨h1, h2, s, h3, h4, h5⟩ := h.lent c x m hm
      refine ⟨h1, h2, s, ?_, h4, h5⟩
      rw [List.getElem?_append_left ((List.getElem?_eq_some_iff.mp h3).1)]; exact h3
    · intro p hp'; simp [hd] at hp'
    · cases hl : k.lent 0 f.slots.length with
      | none => rfl
      | some m =>
        obtain ⟨-, -, t, ht, -⟩ := h.lent 0 _ m hl
        simp at ht
    · exact ⟨⟨true, read, f.next, len⟩, by simp, rfl, rfl, Nat.le_refl len⟩

theorem FInv.addOne {f : Front} {k : Ledger} (h : FInv f k) (hd : f.done = []) {i : Nat} {s : Slot} (hs : f.slots[i]? = some s)
    (hu : s.used = true) (m : Option (Nat × Nat)) (hm : ∀ b len, m = some (b, len) → b = s.buf) {e : Ev}
    (he : (k.next e).lent = fun c' j => if c' = 0 ∧ j = i then some m else k.lent c' j) (hz : (k.next e).size = k.size) :
    FInv { f with flight := f.flight ++ [i] } (k.next e) := by
  refine ⟨?_, h.inj, ?_, ?_, ?_⟩
  · rw [hz]; exact h.bufs
  · rw [hz]; exact h.fresh
  · intro c j m' hl
    rw [he] at hl
    simp only at hl
    split at hl
    · rename_i hc
      obtain ⟨rfl, rfl⟩ := hc
      cases hl
      exact ⟨rfl, by simp, s, hs, hu, hm⟩
    · obtain ⟨h1, h2, h3⟩ := h.lent c j m' hl
      exact ⟨h1, by simp [h2], h3⟩
  · intro p hp; simp [hd] at hp

theorem FInv.put {f : Front} {k : Ledger} (h : FInv f k) {i : Nat} (hn : k.lent 0 i = none) {d : List (Nat × Bool)}
    (hd : ∀ p ∈ d, p ∈ f.done) : FInv { f.putSlot i with done := d } k := by
  have hget : ∀ (x : Nat) (s' : Slot), (f.slots.modify i fun s => { s with used := false })[x]? = some s' →
      ∃ s : Slot, f.slots[x]? = some s ∧ s'.buf = s.buf ∧ s'.len = s.len := by
    intro x s' hx
    rw [List.getElem?_modify] at hx
    cases hy : f.slots[x]? with
    | none => rw [hy] at hx; cases hx
    | some s =>
      rw [hy] at hx
      simp only [Option.map_eq_map, Option.map_some, Option.some.injEq] at hx
      refine ⟨s, rfl, ?_⟩
      subst hx
      by_cases hjx : i = x <;> simp [hjx]
  refine ⟨?_, ?_, h.fresh, ?_, fun p hp => h.done p (hd p hp)⟩
  · intro x s' hx
    obtain ⟨s, hs', e1, e2⟩ := hget x s' hx
    rw [e1, e2]; exact h.bufs x s hs'
  · intro x y s' t' hx hy he
    obtain ⟨s, hs', e1, -⟩ := hget x s' hx
    obtain ⟨t, ht', e2, -⟩ := hget y t' hy
    exact h.inj x y s t hs' ht' (by rw [← e1, ← e2]; exact he)
  · intro c x m hm
    obtain ⟨rfl, h2, s, h3, h4, h5⟩ := h.lent c x m hm
    have hx : i ≠ x := by rintro rfl; rw [hn] at hm; cases hm
    refine ⟨rfl, h2, s, ?_, h4, h5⟩
    simp only [Front.putSlot, List.getElem?_modify, h3, hx, if_false]; rfl

theorem front_inv (f : Front) (es : List Ev) (s' : Front) (k : Ledger) (h : f.gone = true ∨ FInv f k)
    (st : Front.Step true f es s') (_ : Law k es) : Fine k es ∧ (s'.gone = true ∨ FInv s' (run k es)) := by
  have hI : f.gone = false → FInv f k := fun hg => h.resolve_left (by simp [hg])
  cases st with
  | read f' n i b es hg hd hn hs =>
    obtain ⟨a1, a2, a3, a4, -, a6, a7, t, t1, t2, t3, t4⟩ := getSlot_spec (hI hg) hd hs
    have hl : (run k es).lent 0 i = none := by rw [a3]; exact a4
    refine ⟨(fine_append ..).mpr ⟨a1, ⟨⟨t.len, ?_, Nat.le_trans (sqeLen_le n) t4⟩, ?_, hl⟩, trivial⟩, .inr ?_⟩
    · rw [← t3]; exact (a2.bufs i t t1).1
    · rw [← t3]; exact a2.quiet t1 hl
    · rw [run_append]
      exact a2.addOne a6 t1 t2 (some (b, sqeLen n)) (fun _ _ hb => by cases hb; exact t3.symm) rfl rfl (e := .add 0 i false b (sqeLen n))
  | write f' n i b x es hg hd hn hs =>
    obtain ⟨a1, a2, a3, a4, -, a6, a7, t, t1, t2, t3, t4⟩ := getSlot_spec (hI hg) hd hs
    have hl : (run k es).lent 0 i = none := by rw [a3]; exact a4
    have hz := (a2.bufs i t t1).1
    have hq : (run k es).quiet b := by rw [← t3]; exact a2.quiet t1 hl
    rw [t3] at hz
    refine ⟨?_, .inr ?_⟩
    · rw [fine_append, fine_append, run_append, touches_run]
      exact ⟨⟨a1, touches_fine _ _ _ ⟨by rw [hz]; simp, hq⟩⟩, ⟨⟨t.len, hz, Nat.le_trans (sqeLen_le n) t4⟩, hq, hl⟩, trivial⟩
    · rw [run_append, run_append, touches_run]
      exact a2.addOne a6 t1 t2 (some (b, sqeLen n)) (fun _ _ hb => by cases hb; exact t3.symm) rfl rfl (e := .add 0 i true b (sqeLen n))
  | writeBad f' n i b x es hg hd hs =>
    obtain ⟨a1, a2, a3, a4, -, a6, a7, t, t1, t2, t3, t4⟩ := getSlot_spec (hI hg) hd hs
    have hl : (run k es).lent 0 i = none := by rw [a3]; exact a4
    have hz := (a2.bufs i t t1).1
    have hq : (run k es).quiet b := by rw [← t3]; exact a2.quiet t1 hl
    rw [t3] at hz
    refine ⟨?_, .inr ?_⟩
    · rw [fine_append]
      exact ⟨a1, touches_fine _ _ _ ⟨by rw [hz]; simp, hq⟩⟩
    · rw [run_append, touches_run]
      exact a2.put hl fun p hp => hp
  | flush f' i b es hg hd hs =>
    obtain ⟨a1, a2, a3, a4, -, a6, a7, t, t1, t2, t3, t4⟩ := getSlot_spec (hI hg) hd hs
    have hl : (run k es).lent 0 i = none := by rw [a3]; exact a4
    refine ⟨(fine_append ..).mpr ⟨a1, hl, trivial⟩, .inr ?_⟩
    rw [run_append]
    exact a2.addOne a6 t1 t2 none (fun _ _ hb => by cases hb) rfl rfl (e := .flush 0 i)
  | poll rs hg hd =>
    have hi := hI hg
    refine ⟨⟨trivial, trivial⟩, .inr ⟨hi.bufs, hi.inj, hi.fresh, ?_, ?_⟩⟩
    · intro c i m hm
      simp only [run_cons, run_nil, Ledger.next] at hm
      split at hm
      · cases hm
      · rename_i hc
        obtain ⟨rfl, h2, h3⟩ := hi.lent c i m hm
        refine ⟨rfl, ?_, h3⟩
        simp only [true_and] at hc
        simp only [List.mem_filter]
        exact ⟨h2, by simpa using hc⟩
    · intro p hp
      simp only [run_cons, run_nil, Ledger.next]
      rw [if_pos ⟨trivial, List.mem_map_of_mem hp⟩]
  | finish i ok rest t x hg hd ht =>
    have hi := hI hg
    have hl : k.lent 0 i = none := hi.done (i, ok) (by simp [hd])
    have hz := (hi.bufs i t ht).1
    have key : FInv { f.putSlot i with done := rest } k := hi.put hl fun p hp => by rw [hd]; simp [hp]
    cases hr : (t.read && ok) with
    | false => exact ⟨trivial, .inr key⟩
    | true =>
      refine ⟨touches_fine _ _ _ ⟨by rw [hz]; simp, hi.quiet ht hl⟩, .inr ?_⟩
      simp only [if_true]
      rw [touches_run]; exact key
  | drop hg hd hr =>
    have hi := hI hg
    have hfl := hr rfl
    have hq : ∀ b, k.quiet b := by
      intro b c j len hl
      have := (hi.lent c j _ hl).2.1
      rw [hfl] at this; cases this
    refine ⟨?_, .inl rfl⟩
    have : (f.slots.map fun s => Ev.free s.buf) = (f.slots.map Slot.buf).map .free := by simp
    rw [this]
    refine frees_fine _ _ ?_ ?_ fun b _ => hq b
    · refine List.pairwise_iff_getElem.mpr fun i j hi' hj hij he => ?_
      simp only [List.length_map] at hi' hj
      have h1 : f.slots[i]? = some (f.slots[i]'hi') := List.getElem?_eq_getElem hi'
      have h2 : f.slots[j]? = some (f.slots[j]'hj) := List.getElem?_eq_getElem hj
      simp only [List.getElem_map] at he
      have := hi.inj i j _ _ h1 h2 he
      omega
    · intro b hb
      rw [List.mem_map] at hb
      obtain ⟨t, ht, rfl⟩ := hb
      obtain ⟨i, hlt, hi'⟩ := List.getElem_of_mem ht
      have := (hi.bufs i t (by rw [List.getElem?_eq_getElem hlt, hi'])).1
      rw [this]; simp

theorem front_start (q size : Nat) : FInv (Front.new q size) (ledger (allocs q size)) := by
  rw [ledger_eq, allocs_run]
  have hget : ∀ (i : Nat) (s : Slot), ((List.range q).map fun b => (⟨false, false, b, size⟩ : Slot))[i]? = some s → i < q ∧ s = ⟨false, false, i, size⟩ := by
    intro i s h
    by_cases hi : i < q
    · simp only [List.getElem?_map, List.getElem?_range hi, Option.map_some, Option.some.injEq] at h
      exact ⟨hi, h.symm⟩
    · rw [List.getElem?_eq_none (by simp; omega)] at h; cases h
  refine ⟨?_, ?_, ?_, fun c i m h => (by cases h), fun p hp => (by cases hp)⟩
  · intro i s h
    obtain ⟨h1, rfl⟩ := hget i s h
    exact ⟨by simp [h1], h1⟩
  · intro i j s t h1 h2 he
    obtain ⟨-, rfl⟩ := hget i s h1
    obtain ⟨-, rfl⟩ := hget j t h2
    exact he
  · intro b hb
    have : ¬ b < q := by simp only [Front.new] at hb; omega
    simp [this, Ledger.empty]

theorem front_keeps {q size : Nat} {tr : List Ev} {f : Front} (h : Run (Front.Step true) (allocs q size) (Front.new q size) tr f)
    (ha : Answers tr) : Keeps tr :=
  (run_keeps (fun s k => s.gone = true ∨ FInv s k) (allocs_fine _ _ _ fun _ _ => rfl) (.inr (front_start q size)) front_inv h ha).1

/-! ## The ublk front end -/

structure UInv (q size : Nat) (u : Ub) (k : Ledger) : Prop where
  bufs : ∀ t, t < q → k.size t = some size
  pend : ∀ r ∈ u.pending, r.tag < q ∧ u.inflight r.tag = none ∧ r.sectors * 512 ≤ size
  infl : ∀ i r, u.inflight i = some r → i < q
  nodup : (u.pending.map UReq.tag).Nodup
  lent : ∀ c i m, k.lent c i = some m → c = 0 ∧ u.inflight i ≠ none ∧ ∀ b len, m = some (b, len) → b = i
  done : ∀ p ∈ u.done, k.lent 0 p.1 = none

theorem UInv.free {q size : Nat} {u : Ub} {k : Ledger} (h : UInv q size u k) {i : Nat} (hi : k.lent 0 i = none) : k.quiet i := by
  intro c j len hl
  obtain ⟨rfl, h2, h3⟩ := h.lent c j _ hl
  have := h3 _ _ rfl
  rw [← this, hi] at hl; cases hl

theorem UInv.idle {q size : Nat} {u : Ub} {k : Ledger} (h : UInv q size u k) {i : Nat} (hi : u.inflight i = none) : k.lent 0 i = none := by
  cases hl : k.lent 0 i with
  | none => rfl
  | some m => exact absurd hi (h.lent 0 i m hl).2.1

theorem UInv.start {q size : Nat} {u : Ub} {k : Ledger} (h : UInv q size u k) (hd : u.done = []) {r : UReq} {rest : List UReq}
    (hp : u.pending = r :: rest) (m : Option (Nat × Nat)) (hm : ∀ b len, m = some (b, len) → b = r.tag) {e : Ev}
    (he : (k.next e).lent = fun c' j => if c' = 0 ∧ j = r.tag then some m else k.lent c' j) (hz : (k.next e).size = k.size) :
    UInv q size { u with pending := rest, inflight := setFn u.inflight r.tag (some r) } (k.next e) := by
  have hn := h.nodup
  rw [hp, List.map_cons, List.nodup_cons] at hn
  refine ⟨by rw [hz]; exact h.bufs, ?_, ?_, hn.2, ?_, ?_⟩
  · intro x hx
    obtain ⟨h1, h2, h3⟩ := h.pend x (by rw [hp]; simp [hx])
    refine ⟨h1, ?_, h3⟩
    have : x.tag ≠ r.tag := fun he => hn.1 (he ▸ List.mem_map_of_mem hx)
    simp [setFn, this, h2]
  · intro i x hx
    simp only [setFn] at hx
    split at hx
    · rename_i hi; rw [hi]; exact (h.pend r (by rw [hp]; simp)).1
    · exact h.infl i x hx
  · intro c i m' hl
    rw [he] at hl
    simp only at hl
    split at hl
    · rename_i hc
      obtain ⟨rfl, rfl⟩ := hc
      cases hl
      exact ⟨rfl, by simp [setFn], hm⟩
    · obtain ⟨h1, h2, h3⟩ := h.lent c i m' hl
      refine ⟨h1, ?_, h3⟩
      simp only [setFn]
      split
      · simp
      · exact h2
  · intro p hp; simp [hd] at hp

theorem ub_inv {q size : Nat} (u : Ub) (es : List Ev) (s' : Ub) (k : Ledger) (h : UInv q size u k)
    (st : Ub.Step false q size u es s') (_ : Law k es) : Fine k es ∧ UInv q size s' (run k es) := by
  cases st with
  | handle r hd hq hp hi hb =>
    refine ⟨trivial, h.bufs, ?_, h.infl, ?_, h.lent, h.done⟩
    · intro x hx
      rw [List.mem_append, List.mem_singleton] at hx
      rcases hx with hx | rfl
      · exact h.pend x hx
      · exact ⟨hq, hi, hb⟩
    · simp only [List.map_append, List.map_cons, List.map_nil]
      rw [List.nodup_append]
      refine ⟨h.nodup, by simp, ?_⟩
      intro a ha b hb' hab
      rw [List.mem_singleton] at hb'
      rw [hab, hb'] at ha
      exact hp ha
  | read r rest hd hp ho =>
    obtain ⟨h1, h2, h3⟩ := h.pend r (by rw [hp]; simp)
    have hl := h.idle h2
    refine ⟨⟨⟨⟨size, h.bufs _ h1, Nat.le_trans (sqeLen_le _) h3⟩, h.free hl, hl⟩, trivial⟩, ?_⟩
    exact h.start hd hp (some (r.tag, sqeLen r.sectors)) (fun _ _ hb => by cases hb; rfl) rfl rfl (e := .add 0 r.tag false r.tag (sqeLen r.sectors))
  | write r rest hd hp ho =>
    obtain ⟨h1, h2, h3⟩ := h.pend r (by rw [hp]; simp)
    have hl := h.idle h2
    refine ⟨⟨⟨by rw [h.bufs _ h1]; simp, h.free hl⟩, ⟨⟨size, h.bufs _ h1, Nat.le_trans (sqeLen_le _) h3⟩, h.free hl, hl⟩, trivial⟩, ?_⟩
    exact h.start hd hp (some (r.tag, sqeLen r.sectors)) (fun _ _ hb => by cases hb; rfl) rfl rfl (e := .add 0 r.tag true r.tag (sqeLen r.sectors))
  | flush r rest hd hp ho =>
    obtain ⟨h1, h2, h3⟩ := h.pend r (by rw [hp]; simp)
    have hl := h.idle h2
    refine ⟨⟨hl, trivial⟩, ?_⟩
    exact h.start hd hp none (fun _ _ hb => by cases hb) rfl rfl (e := .flush 0 r.tag)
  | unsupported r rest hd hp ho =>
    have hn := h.nodup
    rw [hp, List.map_cons, List.nodup_cons] at hn
    exact ⟨trivial, h.bufs, fun x hx => h.pend x (by rw [hp]; simp [hx]), h.infl, hn.2, h.lent, h.done⟩
  | refused hr => cases hr
  | poll rs hd =>
    refine ⟨⟨trivial, trivial⟩, h.bufs, h.pend, h.infl, h.nodup, ?_, ?_⟩
    · intro c i m hm
      simp only [run_cons, run_nil, Ledger.next] at hm
      split at hm
      · cases hm
      · exact h.lent c i m hm
    · intro p hp
      simp only [run_cons, run_nil, Ledger.next]
      rw [if_pos ⟨trivial, List.mem_map_of_mem hp⟩]
  | finish r i ok rest hd hi =>
    have hl : k.lent 0 i = none := h.done (i, ok) (by simp [hd])
    have hpend : ∀ x ∈ u.pending, x.tag < q ∧ setFn u.inflight i none x.tag = none ∧ x.sectors * 512 ≤ size := by
      intro x hx
      obtain ⟨h1, h2, h3⟩ := h.pend x hx
      refine ⟨h1, ?_, h3⟩
      simp only [setFn]; split
      · rfl
      · exact h2
    have key : UInv q size { u with done := rest, inflight := setFn u.inflight i none } k := by
      refine ⟨h.bufs, hpend, fun j x hj => ?_, h.nodup, ?_, fun p hp => h.done p (by rw [hd]; simp [hp])⟩
      · simp only [setFn] at hj
        split at hj
        · cases hj
        · exact h.infl j x hj
      intro c j m hm
      obtain ⟨rfl, h2, h3⟩ := h.lent c j m hm
      have : j ≠ i := by rintro rfl; rw [hl] at hm; cases hm
      exact ⟨rfl, by simp [setFn, this, h2], h3⟩
    cases hr : (ok && r.op == .read) with
    | false => exact ⟨trivial, key⟩
    | true =>
      refine ⟨⟨⟨?_, h.free hl⟩, trivial⟩, key⟩
      rw [h.bufs i (h.infl i r hi)]; simp
  | unknown i ok rest hd hi =>
    exact ⟨trivial, h.bufs, h.pend, h.infl, h.nodup, h.lent, fun p hp => h.done p (by rw [hd]; simp [hp])⟩

theorem ub_keeps {q size : Nat} {tr : List Ev} {u : Ub} (h : Run (Ub.Step false q size) (allocs q size) Ub.new tr u)
    (ha : Answers tr) : Keeps tr := by
  refine (run_keeps (UInv q size) (allocs_fine _ _ _ fun _ _ => rfl) ?_ ub_inv h ha).1
  rw [ledger_eq, allocs_run]
  exact ⟨fun t ht => by simp [ht], fun r hr => (by cases hr), fun i r hr => (by cases hr), List.nodup_nil, fun c i m hm => (by cases hm),
    fun p hp => (by cases hp)⟩

/-! ## Code that waits for single requests -/

structure SInv (s : Single) (k : Ledger) : Prop where
  fresh : ∀ b, s.next ≤ b → k.size b = none
  idle : s.at_ = .idle → ∀ c i, k.lent c i = none
  io : ∀ b rd, s.at_ = .io b rd → b < s.next ∧ k.size b ≠ none ∧ ∀ c i m, k.lent c i = some m → c = 6 ∧ i = 0
  fl : ∀ b, s.at_ = .flushing b → b < s.next ∧ k.size b ≠ none ∧ ∀ c i b' len, k.lent c i ≠ some (some (b', len))

theorem mem_fst {rs : List (Nat × Bool)} {i : Nat} {ok : Bool} (h : (i, ok) ∈ rs) : i ∈ rs.map Prod.fst := List.mem_map_of_mem (f := Prod.fst) h

theorem single_inv (s : Single) (es : List Ev) (s' : Single) (k : Ledger) (h : SInv s k)
    (st : Single.Step false s es s') (_ : Law k es) : Fine k es ∧ SInv s' (run k es) := by
  have clear : ∀ b rd (rs : List (Nat × Bool)), s.at_ = .io b rd → 0 ∈ rs.map Prod.fst → ∀ c i, (k.next (.poll 6 rs)).lent c i = none := by
    intro b rd rs ha h0 c i
    simp only [Ledger.next]
    split
    · rfl
    · rename_i hc
      cases hl : k.lent c i with
      | none => rfl
      | some m =>
        obtain ⟨rfl, rfl⟩ := (h.io b rd ha).2.2 c i m hl
        exact absurd ⟨rfl, h0⟩ hc
  have freed : ∀ (k' : Ledger) (n b : Nat), b < n → (∀ x, n ≤ x → k'.size x = none) → ∀ x, n ≤ x → (k'.next (.free b)).size x = none := by
    intro k' n b hb hk x hx
    simp only [Ledger.next]; split
    · rfl
    · exact hk x hx
  cases st with
  | read n ha =>
    have hf := h.fresh s.next (Nat.le_refl _)
    refine ⟨⟨hf, ⟨⟨n * 512, by simp [Ledger.next], sqeLen_le n⟩, fun c i len hl => ?_, h.idle ha 6 0⟩, trivial⟩, ?_, ?_, ?_, ?_⟩
    · rw [show (k.next (.alloc s.next (n * 512))).lent c i = k.lent c i from rfl, h.idle ha] at hl; cases hl
    · intro b hb; simp only [run_cons, run_nil, Ledger.next]; rw [if_neg (by simp only at hb; omega)]
      exact h.fresh b (by simp only at hb; omega)
    · intro hx; cases hx
    · intro b rd hx; cases hx
      refine ⟨Nat.lt_succ_self _, by simp [Ledger.next], fun c i m hm => ?_⟩
      simp only [run_cons, run_nil, Ledger.next] at hm
      split at hm
      · assumption
      · rw [h.idle ha] at hm; cases hm
    · intro b hx; cases hx
  | write n ha =>
    have hf := h.fresh s.next (Nat.le_refl _)
    have hq : (k.next (.alloc s.next (n * 512))).quiet s.next := by
      intro c i len hl
      rw [show (k.next (.alloc s.next (n * 512))).lent c i = k.lent c i from rfl, h.idle ha] at hl; cases hl
    refine ⟨⟨hf, ⟨by simp [Ledger.next], hq⟩, ⟨⟨n * 512, by simp [Ledger.next], sqeLen_le n⟩, hq, h.idle ha 6 0⟩, trivial⟩, ?_, ?_, ?_, ?_⟩
    · intro b hb; simp only [run_cons, run_nil, Ledger.next]; rw [if_neg (by simp only at hb; omega)]
      exact h.fresh b (by simp only at hb; omega)
    · intro hx; cases hx
    · intro b rd hx; cases hx
      refine ⟨Nat.lt_succ_self _, by simp [Ledger.next], fun c i m hm => ?_⟩
      simp only [run_cons, run_nil, Ledger.next] at hm
      split at hm
      · assumption
      · rw [h.idle ha] at hm; cases hm
    · intro b hx; cases hx
  | poll rs b rd ha h0 =>
    refine ⟨⟨trivial, trivial⟩, h.fresh, ?_, ?_, ?_⟩
    · intro hx; rw [ha] at hx; cases hx
    · intro b' rd' hx
      obtain ⟨h1, h2, h3⟩ := h.io b' rd' hx
      refine ⟨h1, h2, fun c i m hm => ?_⟩
      simp only [run_cons, run_nil, Ledger.next] at hm
      split at hm
      · cases hm
      · exact h3 c i m hm
    · intro b' hx; rw [ha] at hx; cases hx
  | gotRead rs b ha h0 =>
    have hc := clear b true rs ha (mem_fst h0)
    obtain ⟨h1, h2, -⟩ := h.io b true ha
    have hq : (k.next (.poll 6 rs)).quiet b := fun c i len hl => by rw [hc] at hl; cases hl
    refine ⟨⟨trivial, ⟨h2, hq⟩, ⟨h2, hq⟩, trivial⟩, freed _ _ _ h1 h.fresh, fun _ => hc, ?_, ?_⟩
    · intro b' rd' hx; cases hx
    · intro b' hx; cases hx
  | gotWrite rs b ha h0 =>
    have hc := clear b false rs ha (mem_fst h0)
    obtain ⟨h1, h2, -⟩ := h.io b false ha
    have hq : (k.next (.poll 6 rs)).quiet b := fun c i len hl => by rw [hc] at hl; cases hl
    refine ⟨⟨trivial, ⟨h2, hq⟩, trivial⟩, freed _ _ _ h1 h.fresh, fun _ => hc, ?_, ?_⟩
    · intro b' rd' hx; cases hx
    · intro b' hx; cases hx
  | flush rs b ha h0 =>
    have hc := clear b false rs ha (mem_fst h0)
    obtain ⟨h1, h2, -⟩ := h.io b false ha
    refine ⟨⟨trivial, hc 6 1, trivial⟩, h.fresh, ?_, ?_, ?_⟩
    · intro hx; cases hx
    · intro b' rd' hx; cases hx
    · intro b' hx; cases hx
      refine ⟨h1, h2, fun c i b' len hl => ?_⟩
      simp only [run_cons, run_nil] at hl
      rw [show ((k.next (.poll 6 rs)).next (.flush 6 1)).lent c i = if c = 6 ∧ i = 1 then some none else (k.next (.poll 6 rs)).lent c i from rfl, hc] at hl
      split at hl <;> cases hl
  | pollFlush rs b ha h0 =>
    refine ⟨⟨trivial, trivial⟩, h.fresh, ?_, ?_, ?_⟩
    · intro hx; rw [ha] at hx; cases hx
    · intro b' rd' hx; rw [ha] at hx; cases hx
    · intro b' hx
      obtain ⟨h1, h2, h3⟩ := h.fl b' hx
      refine ⟨h1, h2, fun c i x len hl => ?_⟩
      simp only [run_cons, run_nil, Ledger.next] at hl
      split at hl
      · cases hl
      · exact h3 c i x len hl
  | gotFlush rs b ha h0 =>
    obtain ⟨h1, h2, h3⟩ := h.fl b ha
    refine ⟨⟨trivial, ⟨h2, fun c i len hl => ?_⟩, trivial⟩, freed _ _ _ h1 h.fresh, fun hx => (by cases hx), fun _ _ hx => (by cases hx), fun _ hx => (by cases hx)⟩
    simp only [Ledger.next] at hl
    split at hl
    · cases hl
    · exact h3 c i b len hl
  | failed rs b rd ha h0 =>
    have hc := clear b rd rs ha (mem_fst h0)
    obtain ⟨h1, h2, -⟩ := h.io b rd ha
    have hq : (k.next (.poll 6 rs)).quiet b := fun c i len hl => by rw [hc] at hl; cases hl
    exact ⟨⟨trivial, ⟨h2, hq⟩, trivial⟩, freed _ _ _ h1 h.fresh, fun hx => (by cases hx), fun _ _ hx => (by cases hx), fun _ hx => (by cases hx)⟩
  | flushTimeout b ha =>
    obtain ⟨h1, h2, h3⟩ := h.fl b ha
    exact ⟨⟨⟨h2, fun c i len hl => h3 c i b len hl⟩, trivial⟩, freed _ _ _ h1 h.fresh, fun hx => (by cases hx), fun _ _ hx => (by cases hx), fun _ hx => (by cases hx)⟩
  | timeout b rd ht => cases ht

theorem single_keeps {tr : List Ev} {s : Single} (h : Run (Single.Step false) [] ⟨0, .idle⟩ tr s) (ha : Answers tr) : Keeps tr :=
  (run_keeps SInv (fine_nil _) ⟨fun _ _ => rfl, fun _ _ _ => rfl, fun _ _ hx => (by cases hx), fun _ hx => (by cases hx)⟩ single_inv h ha).1

end Verif.Lend
