import Verif.Props.Vhost
import Verif.Spec.FrontSetup

/-! # Sizes of the request slots -/

set_option maxRecDepth 8000

namespace Verif.Vhost
open Verif Verif.Metadata Verif.Disk

/-- The lengths of the buffers. -/
def sizes (v : Vq) : List Nat := v.slots.map fun s => s.buf.length

theorem map_modify_same {α β : Type} (g : α → β) (f : α → α) (l : List α) (i : Nat) (h : ∀ a, l[i]? = some a → g (f a) = g a) :
    (l.modify i f).map g = l.map g := by
  apply List.ext_getElem?
  intro j
  rw [List.getElem?_map, List.getElem?_map, List.getElem?_modify]
  cases hj : l[j]? with
  | none => rfl
  | some a =>
    by_cases hij : i = j
    · subst hij; simp only [if_true, Option.map_eq_map, Option.map_some]; rw [h a hj]
    · simp only [if_neg hij, Option.map_eq_map, Option.map_some]

theorem sizes_put (v : Vq) (i : Nat) : sizes (putSlot v i) = sizes v := map_modify_same _ _ _ _ fun _ _ => rfl

theorem sizes_complete (v : Vq) (u h st : Nat) (b : UInt8) : sizes (complete v u h st b).1 = sizes v := by
  unfold complete
  simp only
  split <;> rfl

theorem sizes_getSlot {v v1 : Vq} {len id : Nat} {r : Request} {c : Chain} (h : getSlot v len r c = (v1, id)) :
    sizes v1 = sizes v ∨ findSlot v.slots len = none ∧ sizes v1 = sizes v ++ [len] := by
  unfold getSlot at h
  cases hf : findSlot v.slots len with
  | some i =>
    rw [hf] at h
    simp only [Prod.mk.injEq] at h
    obtain ⟨rfl, rfl⟩ := h
    left
    unfold findSlot at hf
    obtain ⟨hi, _⟩ := List.findIdx?_eq_some_iff_getElem.mp hf
    simp only [sizes]
    apply List.ext_getElem?
    intro j
    rw [List.getElem?_map, List.getElem?_map, List.getElem?_set]
    by_cases hij : i = j
    · subst hij; simp [hi]
    · rw [if_neg hij]
  | none =>
    rw [hf] at h
    simp only [Prod.mk.injEq] at h
    obtain ⟨rfl, rfl⟩ := h
    right
    exact ⟨rfl, by simp [sizes]⟩

/-- What processing a chain does to the buffers: nothing, or one more, as long as the data of the chain, and only if no free one is long
enough. -/
theorem sizes_chain {dev : Bytes} {v v' : Vq} {head : Nat} {ds : List Desc} {es : List VEv} (h : processChain dev v head ds = .ok (v', es)) :
    sizes v' = sizes v ∨ ∃ len, len ≤ total (dataOf ds) ∧ len < 2 ^ 32 ∧ findSlot v.slots len = none ∧ sizes v' = sizes v ++ [len] := by
  unfold processChain at h
  simp only at h
  cases hp : parse v.mem ds with
  | error e =>
    rw [hp] at h
    simp only [completeBad, Res.ok.injEq, Prod.mk.injEq] at h
    obtain ⟨rfl, rfl⟩ := h
    exact Or.inl rfl
  | ok r =>
    rw [hp] at h
    simp only at h
    have hdata : total r.data = total (dataOf ds) := by rw [((C37_parse_partial _ _ _).mp hp).data]
    have hlen : requestLen r ≤ total (dataOf ds) := by rw [requestLen_eq, hdata]; exact Nat.mod_le _ _
    have hlt : requestLen r < 2 ^ 32 := Nat.mod_lt _ (by decide)
    have done : ∀ (w : Vq) (st : Nat) (b : UInt8), sizes w = sizes v → complete w v.popped head st b = (v', es) → sizes v' = sizes v := by
      intro w st b hw he
      rw [← hw, ← sizes_complete w v.popped head st b, he]
    cases ht : r.ty with
    | «in» =>
      rw [ht] at h
      simp only [processRead] at h
      by_cases hl : requestLen r % 512 ≠ 0
      · rw [if_pos hl] at h
        simp only [Res.ok.injEq] at h
        exact Or.inl (done { v with popped := v.popped + 1 } _ _ rfl h)
      · rw [if_neg hl] at h
        cases hg : getSlot { v with popped := v.popped + 1 } (requestLen r) r ⟨v.popped, head, ds⟩ with
        | mk v1 id =>
          simp only [hg, Res.ok.injEq, Prod.mk.injEq] at h
          obtain ⟨rfl, _⟩ := h
          rcases sizes_getSlot hg with h1 | ⟨h1, h2⟩
          · exact Or.inl h1
          · exact Or.inr ⟨_, hlen, hlt, h1, h2⟩
    | out =>
      rw [ht] at h
      simp only [processWrite] at h
      by_cases hl : requestLen r % 512 ≠ 0
      · rw [if_pos hl] at h
        simp only [Res.ok.injEq] at h
        exact Or.inl (done { v with popped := v.popped + 1 } _ _ rfl h)
      · rw [if_neg hl] at h
        cases hg : getSlot { v with popped := v.popped + 1 } (requestLen r) r ⟨v.popped, head, ds⟩ with
        | mk v1 id =>
          simp only [hg] at h
          cases hga : gather v1.mem r.data 0 ((v1.slots[id]?.map Slot.buf).getD []) false with
          | panic => rw [hga] at h; cases h
          | ok p =>
            obtain ⟨buf, failed⟩ := p
            rw [hga] at h
            simp only at h
            obtain ⟨_, g2, _⟩ := gather_ok hga (Nat.zero_le _)
            have hmod : sizes { v1 with slots := v1.slots.modify id fun s => { s with buf := buf } } = sizes v1 := by
              refine map_modify_same _ _ _ _ fun a ha => ?_
              rw [ha] at g2
              exact g2
            have hv' : sizes v' = sizes v1 := by
              cases failed with
              | true =>
                simp only [if_true, Res.ok.injEq, Prod.mk.injEq] at h
                rw [← h.1, sizes_put, sizes_complete, hmod]
              | false =>
                simp only [Bool.false_eq_true, if_false, Res.ok.injEq, Prod.mk.injEq] at h
                rw [← h.1]; exact hmod
            rcases sizes_getSlot hg with h1 | ⟨h1, h2⟩
            · exact Or.inl (hv'.trans h1)
            · exact Or.inr ⟨_, hlen, hlt, h1, hv'.trans h2⟩
    | other =>
      rw [ht] at h
      simp only [Res.ok.injEq] at h
      exact Or.inl (done { v with popped := v.popped + 1 } _ _ rfl h)
    | flush =>
      rw [ht] at h
      simp only [processFlush] at h
      cases hg : getSlot { v with popped := v.popped + 1 } 0 r ⟨v.popped, head, ds⟩ with
      | mk v1 id =>
        simp only [hg, Res.ok.injEq, Prod.mk.injEq] at h
        obtain ⟨rfl, _⟩ := h
        rcases sizes_getSlot hg with h1 | ⟨h1, h2⟩
        · exact Or.inl h1
        · exact Or.inr ⟨0, Nat.zero_le _, by decide, h1, h2⟩
    | getId =>
      rw [ht] at h
      simp only [processGetId] at h
      cases hd : r.data with
      | nil => rw [hd] at h; cases h
      | cons p _ =>
        obtain ⟨a, l⟩ := p
        rw [hd] at h
        simp only at h
        by_cases hl : l < 20
        · rw [if_pos hl] at h
          simp only [Res.ok.injEq] at h
          exact Or.inl (done { v with popped := v.popped + 1 } _ _ rfl h)
        · rw [if_neg hl] at h
          simp only [Res.ok.injEq] at h
          exact Or.inl (done { v with popped := v.popped + 1, mem := _ } _ _ rfl h)

theorem sizes_poll {v v' : Vq} {id : Nat} {data : Bytes} {success : Bool} {es : List VEv}
    (hd : ∀ s, v.slots[id]? = some s → data.length ≤ s.buf.length) (h : pollOne (devDone v id data) id success = .ok (v', es)) :
    sizes v' = sizes v := by
  have hdev : sizes (devDone v id data) = sizes v := by
    refine map_modify_same _ _ _ _ fun s hs => ?_
    have := hd s hs
    simp; omega
  unfold pollOne at h
  split at h
  · cases h
  · split at h
    · split at h
      · cases h
      · simp only [Res.ok.injEq, Prod.mk.injEq] at h
        rw [← h.1, sizes_put, sizes_complete]
        exact hdev
    · simp only [Res.ok.injEq, Prod.mk.injEq] at h
      rw [← h.1, sizes_put, sizes_complete]
      exact hdev

/-- Steps of a thread that satisfies the invariant of C38: the buffers stay, or a chain makes one more. -/
theorem sizes_step {dev : Bytes} {v v' : Vq} {es es' : List VEv} (hI : Inv v es) (h : Step dev v es' v') :
    sizes v' = sizes v ∨ ∃ u hd ds rest len, es' = .popped u hd ds :: rest ∧ len ≤ total (dataOf ds) ∧ len < 2 ^ 32 ∧
      findSlot v.slots len = none ∧ sizes v' = sizes v ++ [len] := by
  cases h with
  | guest bytes => exact Or.inl rfl
  | pop v' head descs es hlen h =>
    rcases sizes_chain h with h1 | ⟨len, a, b, c, d⟩
    · exact Or.inl h1
    · exact Or.inr ⟨_, _, _, _, len, rfl, a, b, c, d⟩
  | poll v' id q data success es hi hf h =>
    left
    refine sizes_poll ?_ h
    intro s hs
    obtain ⟨s', hs', _, hfit⟩ := inv_poll hI id q hi
    obtain ⟨hs1, _⟩ := held_some.mp hs'
    rw [hs] at hs1; obtain rfl := Option.some.inj hs1
    exact hfit _ hf
  | notify => exact Or.inl rfl

theorem keeps_prefix {ring segs size : Nat} {es es' : List VEv} (h : Keeps ring segs size (es ++ es')) : Keeps ring segs size es := by
  intro before after u hd ds he
  exact h before (after ++ es') u hd ds (by rw [he, List.append_assoc]; rfl)

/-- A thread all of whose slots are in use has at least as many chains outstanding. -/
theorem full_outstanding {v : Vq} {es : List VEv} (hI : Inv v es) (h : ∀ s ∈ v.slots, s.used = true) : v.slots.length ≤ outstanding es := by
  have hnd : (returnedIds es ++ v.slots.map Slot.uid).Nodup := by
    rw [List.nodup_append]
    refine ⟨hI.nodup, ?_, ?_⟩
    · unfold List.Nodup
      rw [List.pairwise_iff_getElem]
      intro i j hi hj hij he
      rw [List.length_map] at hi hj
      rw [List.getElem_map, List.getElem_map] at he
      have := hI.excl i j _ _ (held_some.mpr ⟨List.getElem?_eq_getElem hi, h _ (List.getElem_mem _)⟩)
        (held_some.mpr ⟨List.getElem?_eq_getElem hj, h _ (List.getElem_mem _)⟩) he
      omega
    · intro a ha b hb he
      subst he
      obtain ⟨s, hs, rfl⟩ := List.mem_map.mp hb
      obtain ⟨i, hi⟩ := List.mem_iff_getElem?.mp hs
      exact (hI.slot i s (held_some.mpr ⟨hi, h s hs⟩)).2.1 ha
  have hle := hnd.length_le_of_subset (l₂ := List.range v.popped) (by
    intro u hu
    rw [List.mem_range]
    rcases List.mem_append.mp hu with hu | hu
    · exact hI.lt u hu
    · obtain ⟨s, hs, rfl⟩ := List.mem_map.mp hu
      obtain ⟨i, hi⟩ := List.mem_iff_getElem?.mp hs
      exact (hI.slot i s (held_some.mpr ⟨hi, h s hs⟩)).1)
  rw [List.length_append, List.length_map, List.length_range] at hle
  unfold outstanding
  rw [hI.pop, List.length_range]
  omega

theorem total_le (segs size : Nat) (ds : List Desc) (h1 : (dataDescs ds).length ≤ segs) (h2 : ∀ d ∈ dataDescs ds, d.len ≤ size) :
    total (dataOf ds) ≤ segs * size := by
  have : ∀ l : List Desc, (∀ d ∈ l, d.len ≤ size) → ((l.map fun d => (d.addr, d.len)).map Prod.snd).sum ≤ l.length * size := by
    intro l
    induction l with
    | nil => intro _; simp
    | cons d l ih =>
      intro h
      have := ih fun x hx => h x (List.mem_cons_of_mem _ hx)
      have hd := h d (List.mem_cons_self ..)
      simp only [List.map_cons, List.sum_cons, List.length_cons, Nat.succ_mul]
      omega
  exact Nat.le_trans (this _ h2) (Nat.mul_le_mul_right _ h1)

theorem sizes_init (mem : GMem) (n bs : Nat) : sizes (Vq.init mem n bs) = List.replicate n bs := by
  simp [sizes, Vq.init]

/-- A guest that keeps to the limits never makes the buffers more. -/
theorem sizes_keeps {dev : Bytes} {mem : GMem} {n bs segs size : Nat} {es : List VEv} {v : Vq} (hbs : bs < 2 ^ 32) (hfit : segs * size ≤ bs)
    (h : Run dev (Vq.init mem n bs) es v) (hk : Keeps n segs size es) : sizes v = List.replicate n bs := by
  generalize hi : Vq.init mem n bs = v0 at h
  induction h with
  | nil => subst hi; exact sizes_init mem n bs
  | @snoc v1 v2 es es' hr hs ih =>
    subst hi
    have hI := run_inv hbs hr
    have hsz := ih (keeps_prefix hk)
    rcases sizes_step hI hs with h1 | ⟨u, hd, ds, rest, len, he, hlen, _, hf, _⟩
    · rw [h1, hsz]
    · exfalso
      subst he
      obtain ⟨k1, k2, k3⟩ := hk es rest u hd ds rfl
      have hle : len ≤ bs := Nat.le_trans hlen (Nat.le_trans (total_le segs size ds k2 k3) hfit)
      have hall : ∀ s ∈ v1.slots, s.used = true := by
        intro s hs
        unfold findSlot at hf
        have hlen' : s.buf.length = bs := by
          have : s.buf.length ∈ sizes v1 := List.mem_map.mpr ⟨s, hs, rfl⟩
          rw [hsz] at this; exact List.eq_of_mem_replicate this
        have := List.findIdx?_eq_none_iff.mp hf s hs
        simp only [Bool.and_eq_false_iff, decide_eq_false_iff_not, Bool.not_eq_false'] at this
        rcases this with h | h
        · omega
        · exact h
      have := full_outstanding hI hall
      have hn : v1.slots.length = n := by
        have := congrArg List.length hsz
        rwa [sizes, List.length_map, List.length_replicate] at this
      omega

theorem allocated_eq (v : Vq) : allocated v = (sizes v).sum := rfl

theorem sum_replicate (n b : Nat) : (List.replicate n b).sum = n * b := by
  induction n with
  | zero => simp
  | succ n ih => rw [List.replicate_succ, List.sum_cons, ih, Nat.succ_mul]; omega

theorem asked_append (a b : List VEv) : asked (a ++ b) = asked a + asked b := by simp [asked]

/-- No guest makes the buffers grow by more than the data of its chains. -/
theorem allocated_le {dev : Bytes} {mem : GMem} {n bs : Nat} {es : List VEv} {v : Vq} (hbs : bs < 2 ^ 32)
    (h : Run dev (Vq.init mem n bs) es v) : allocated v ≤ n * bs + asked es := by
  generalize hi : Vq.init mem n bs = v0 at h
  induction h with
  | nil => subst hi; rw [allocated_eq, sizes_init, sum_replicate]; exact Nat.le_add_right _ _
  | @snoc v1 v2 es es' hr hs ih =>
    subst hi
    have hI := run_inv hbs hr
    have := ih
    rw [asked_append]
    rcases sizes_step hI hs with h1 | ⟨u, hd, ds, rest, len, he, hlen, _, _, hsz⟩
    · rw [allocated_eq, h1, ← allocated_eq]; omega
    · rw [allocated_eq, hsz, List.sum_append, ← allocated_eq, List.sum_singleton, he]
      have : asked (VEv.popped u hd ds :: rest) = total (dataOf ds) + asked rest := by simp [asked]
      omega

/-! ## A guest that does not keep to the limits -/

/-- Everything outstanding can fail, and be returned, without any change of the buffers. -/
theorem drain {dev : Bytes} {mem : GMem} {n bs : Nat} {es : List VEv} {v : Vq} (hbs : bs < 2 ^ 32) (h : Run dev (Vq.init mem n bs) es v) (N : Nat)
    (hN : ∀ i, N ≤ i → v.inflight i = none) :
    ∃ es' v', Run dev (Vq.init mem n bs) (es ++ es') v' ∧ (∀ i, v'.inflight i = none) ∧ sizes v' = sizes v ∧ poppedIds es' = [] ∧ asked es' = 0 := by
  induction N generalizing es v with
  | zero => exact ⟨[], v, by rw [List.append_nil]; exact h, fun i => hN i (Nat.zero_le _), rfl, rfl, rfl⟩
  | succ N ih =>
    cases hi : v.inflight N with
    | none =>
      exact ih h fun i hle => by
        by_cases he : i = N
        · rw [he]; exact hi
        · exact hN i (by omega)
    | some q =>
      have hI := run_inv hbs h
      obtain ⟨s, hs, hok, hfit⟩ := inv_poll hI N q hi
      have hfill : ∃ d, q.filled d := by
        cases q with
        | read sec cnt => exact ⟨zeros (cnt * 512), by simp [DevReq.filled]⟩
        | write => exact ⟨[], rfl⟩
        | flush => exact ⟨[], rfl⟩
      obtain ⟨d, hd⟩ := hfill
      obtain ⟨p, hp⟩ : ∃ p, pollOne (devDone v N d) N false = .ok p := by
        have hslot : (devDone v N d).slots[N]? = some { s with buf := d ++ s.buf.drop d.length } := by
          simp [devDone, (held_some.mp hs).1]
        unfold pollOne
        rw [hslot]
        simp only [Bool.false_eq_true, and_false, if_false]
        exact ⟨_, rfl⟩
      obtain ⟨v1, es1⟩ := p
      obtain ⟨st, hP⟩ := poll_spec hI.small hs hok (hfit _ hd) hp
      have hst := Step.poll (deviceId := dev) v v1 N q d false es1 hi hd hp
      obtain ⟨es', v', r1, r2, r3, r4, r5⟩ := ih (Run.snoc h hst) (by
        intro i hle
        rw [hP.inflight]
        by_cases he : i = N
        · rw [he, upd_same]
        · rw [upd_ne _ _ he]; exact hN i (by omega))
      refine ⟨es1 ++ es', v', by rw [← List.append_assoc]; exact r1, r2, ?_, ?_, ?_⟩
      · rw [r3]
        refine sizes_poll ?_ hp
        intro t ht
        rw [(held_some.mp hs).1] at ht; obtain rfl := Option.some.inj ht
        exact hfit _ hd
      · rw [poppedIds_append, r4, hP.ev]; rfl
      · rw [asked_append, r5, hP.ev]; rfl

/-- The length of the reads of the guest below. -/
def hugeLen : Nat := 2 ^ 32 - 512

/-- One read of `hugeLen` bytes, into one buffer. -/
def hugeChain : List Desc := demoChain [(1000, hugeLen, true)]

/-- `k` such reads at once. -/
theorem huge_run (dev : Bytes) (n bs : Nat) (hbs : bs < hugeLen) (k : Nat) :
    ∃ es v, Run dev (Vq.init (demoMem0 0 3) n bs) es v ∧ v.mem = demoMem0 0 3 ∧ sizes v = List.replicate n bs ++ List.replicate k hugeLen ∧
      (∀ s ∈ v.slots, s.buf.length < hugeLen ∨ s.used = true) ∧ (poppedIds es).length = k ∧
      ∀ u h ds, VEv.popped u h ds ∈ es → ds = hugeChain := by
  have hb : bs < 2 ^ 32 := Nat.lt_of_lt_of_le hbs (by decide)
  induction k with
  | zero =>
    refine ⟨[], _, .nil _, rfl, by rw [sizes_init]; simp, ?_, rfl, fun _ _ _ h => (nomatch h)⟩
    intro s hs
    simp only [Vq.init, List.mem_replicate] at hs
    left; rw [hs.2]; simpa using hbs
  | succ k ih =>
    obtain ⟨es, v, hr, hm, hsz, hall, hlen, hpop⟩ := ih
    have hp : parse v.mem hugeChain = .ok ⟨.in, [(1000, hugeLen)], 3, 4000⟩ := by
      rw [hm]
      exact (C37_parse_partial _ _ _).mpr (demo_accepted 0 3 _ (by decide) (by simp))
    have hrl : requestLen ⟨.in, [(1000, hugeLen)], 3, 4000⟩ = hugeLen := by decide +kernel
    have hnone : findSlot v.slots hugeLen = none := by
      unfold findSlot
      rw [List.findIdx?_eq_none_iff]
      intro s hs
      simp only [Bool.and_eq_false_iff, decide_eq_false_iff_not, Bool.not_eq_false']
      rcases hall s hs with h | h
      · left; omega
      · exact Or.inr h
    have hc : ∃ q, processChain dev v 0 hugeChain = .ok
        ({ v with
            slots := v.slots ++ [⟨true, .in, 3, hugeLen, zeros hugeLen, 4000, v.popped, 0, [(1000, hugeLen)]⟩]
            popped := v.popped + 1
            inflight := upd v.inflight v.slots.length (some q) }, [.dev v.slots.length q]) := by
      refine ⟨.read 3 (hugeLen / 512), ?_⟩
      unfold processChain
      simp only [hp, processRead, hrl]
      rw [if_neg (by decide)]
      simp only [getSlot, hnone]
    obtain ⟨q, hc⟩ := hc
    have hdl : ∀ d ∈ hugeChain, d.len < 2 ^ 32 := by
      intro d hd
      simp only [hugeChain, demoChain, List.map_cons, List.map_nil, List.cons_append, List.nil_append, List.mem_cons, List.not_mem_nil, or_false] at hd
      rcases hd with rfl | rfl | rfl <;> decide
    refine ⟨_, _, Run.snoc hr (.pop v _ 0 hugeChain _ hdl hc), hm, ?_, ?_, ?_, ?_⟩
    · simp only [sizes, List.map_append, List.map_cons, List.map_nil] at hsz ⊢
      rw [hsz, List.append_assoc, List.replicate_succ']
      simp
    · intro s hs
      rcases List.mem_append.mp hs with hs | hs
      · exact hall s hs
      · rw [List.mem_singleton] at hs; right; rw [hs]
    · rw [poppedIds_append, List.length_append, hlen]; rfl
    · intro u h ds hmem
      rcases List.mem_append.mp hmem with hmem | hmem
      · exact hpop u h ds hmem
      · simp only [List.mem_cons, VEv.popped.injEq, reduceCtorEq, List.not_mem_nil, or_false] at hmem
        exact hmem.2.2

end Verif.Vhost
