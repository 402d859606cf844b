import Verif.Spec.MetaRing
import Verif.Proof.MetaDev

/-! Invariant of the metadata flusher with buffers, batches and refused submissions. -/

set_option maxRecDepth 8000

namespace Verif.MetaRing
open Verif Verif.Metadata
open Verif.Lazy (flag flag_or flag_clear_F_W flag_clear_F_S flag_clear_F_F flag_clear_W_F flag_clear_W_S flag_clear_W_W
  flag_FF flag_FW flag_FS flag_WF flag_WW flag_WS writeSector_byte groupHeaders_set_ne getD_set)

/-- What does not change in a run; `A`: the flags asked for. -/
structure Env where
  hdrs0 : Bytes
  disk0 : Nat → Bytes
  A : UInt8 → Nat → Prop

def IsF (f : UInt8) : Prop := f = FETCHED ∨ f = WRITTEN ∨ f = HAS_SOURCE

structure HdrOk (E : Env) (s : St) (k : Nat) (h : UInt8) : Prop where
  t : ∀ hh f, IsF f → (k, hh) ∈ s.told → flag hh f = true → flag h f = true
  i : ∀ f, IsF f → flag (E.hdrs0.getD k 0) f = true → flag h f = true
  a : ∀ f, IsF f → flag h f = true → flag (E.hdrs0.getD k 0) f = true ∨ E.A f k

structure SecOk (E : Env) (s : St) (x : Nat) (v : Bytes) : Prop where
  valid : ∀ k, k < E.hdrs0.length → stripeIdToSector k = x → sectorValid v = true
  hdr : ∀ k, k < E.hdrs0.length → stripeIdToSector k = x → HdrOk E s k (v.getD (k % 508) 0)
  other : (∀ k, k < E.hdrs0.length → stripeIdToSector k ≠ x) → v = E.disk0 x

def img (s : St) (k : Nat) : Bytes := writeSector (groupHeaders s.hdrs (stripeIdToGroup k))

/-- The request of stripe `k` the kernel is working on. -/
def KernOk (s : St) (k : Nat) (u : Update) : Prop :=
  match u.stage with
  | .writing => ∃ done, (k, KOp.write u.sector u.buf done) ∈ s.kern ∧ (done = true → s.disk u.sector = img s k)
  | .flushing => ∃ snap done, (k, KOp.flush snap done) ∈ s.kern ∧ (∀ v, snap u.sector v → v = img s k) ∧
      (done = true → ∀ v, s.surv u.sector v → v = img s k)

structure UpdOk (E : Env) (s : St) (pend fin : List Nat) (k : Nat) (u : Update) : Prop where
  kn : k < E.hdrs0.length
  sector : u.sector = stripeIdToSector k
  header : u.header = s.hdrs.getD k 0
  mask : u.mask = FETCHED ∨ u.mask = WRITTEN
  ask : E.A u.mask k
  untold : (∀ hh, (k, hh) ∈ s.told → flag hh u.mask = false) ∧ flag (E.hdrs0.getD k 0) u.mask = false
  busy : k ∉ fin → s.busy u.sector = true
  wr : u.stage = .writing → s.bufs u.buf = img s k ∧ u.buf ∉ s.free
  fl : u.stage = .flushing → s.disk u.sector = img s k
  fn : k ∈ fin → u.stage = .flushing ∧ ∀ v, s.surv u.sector v → v = img s k
  kern : k ∉ fin → k ∉ pend → KernOk s k u

structure Inv (E : Env) (s : St) (pend fin : List Nat) : Prop where
  len : s.hdrs.length = E.hdrs0.length
  tl : ∀ k h, (k, h) ∈ s.told → k < E.hdrs0.length
  hdr : ∀ k, k < E.hdrs0.length → HdrOk E s k (s.hdrs.getD k 0)
  sv : ∀ x v, s.surv x v → SecOk E s x v
  dk : ∀ x, s.surv x (s.disk x)
  sn : ∀ k snap, (k, KOp.flush snap false) ∈ s.kern → ∀ x, snap x (s.disk x)
  q : ∀ k m, (k, m) ∈ s.queue → k < E.hdrs0.length ∧ (m = FETCHED ∨ m = WRITTEN) ∧ E.A m k
  upd : ∀ k u, s.updates k = some u → UpdOk E s pend fin k u
  own : ∀ e, e ∈ s.kern → ∃ u, s.updates e.1 = some u ∧ e.1 ∉ pend ∧ e.1 ∉ fin
  uq : (s.kern.map Prod.fst).Nodup
  uniq : ∀ k u k' u', s.updates k = some u → s.updates k' = some u' → u.sector = u'.sector → k = k'
  fnd : s.free.Nodup
  bufx : ∀ k u k' u', s.updates k = some u → s.updates k' = some u' → u.stage = .writing → u'.stage = .writing → u.buf = u'.buf → k = k'
  pd : pend.Nodup
  pu : ∀ k, k ∈ pend → ∃ u, s.updates k = some u
  pf : ∀ k, k ∈ pend → k ∉ fin
  fd : fin.Nodup
  fu : ∀ k, k ∈ fin → ∃ u, s.updates k = some u

theorem put_self {α : Type} (f : Nat → α) (k : Nat) (v : α) : put f k v k = v := by simp [put]
theorem put_ne {α : Type} (f : Nat → α) {k x : Nat} (v : α) (h : x ≠ k) : put f k v x = f x := by simp [put, h]

theorem sector_eq {k k' : Nat} : stripeIdToSector k = stripeIdToSector k' ↔ stripeIdToGroup k = stripeIdToGroup k' := by
  simp [stripeIdToSector, stripeIdToGroup]

theorem img_byte {s : St} {k k' : Nat} (hk : k' < s.hdrs.length) (h : stripeIdToSector k' = stripeIdToSector k) :
    (img s k).getD (k' % 508) 0 = s.hdrs.getD k' 0 := by
  unfold img
  rw [← sector_eq.1 h]
  exact writeSector_byte _ _ hk

theorem img_set_ne (s : St) {k k' : Nat} (v : UInt8) (h : stripeIdToSector k' ≠ stripeIdToSector k) :
    writeSector (groupHeaders (s.hdrs.set k v) (stripeIdToGroup k')) = img s k' := by
  unfold img
  rw [groupHeaders_set_ne]
  intro e
  exact h (sector_eq.2 e.symm)

/-- The current image of a group is acceptable. -/
theorem Inv.imgOk {E : Env} {s : St} {pend fin : List Nat} (h : Inv E s pend fin) {k : Nat} (hk : k < E.hdrs0.length) :
    SecOk E s (stripeIdToSector k) (img s k) := by
  refine ⟨fun _ _ _ => writeSector_valid _, fun k' hk' hs => ?_, fun hn => absurd rfl (hn k hk)⟩
  rw [img_byte (by rw [h.len]; exact hk') hs]
  exact h.hdr k' hk'

theorem clear_flag {h m f : UInt8} (hm : m = FETCHED ∨ m = WRITTEN) (hf : IsF f) :
    flag (h &&& ~~~m) f = (flag h f && !(decide (f = m))) := by
  rcases hm with rfl | rfl <;> rcases hf with rfl | rfl | rfl
  · rw [flag_clear_F_F]; simp
  · rw [flag_clear_F_W]; simp [FETCHED, WRITTEN]
  · rw [flag_clear_F_S]; simp [FETCHED, HAS_SOURCE]
  · rw [flag_clear_W_F]; simp [FETCHED, WRITTEN]
  · rw [flag_clear_W_W]; simp
  · rw [flag_clear_W_S]; simp [WRITTEN, HAS_SOURCE]

theorem set_flag {h m f : UInt8} (hm : m = FETCHED ∨ m = WRITTEN) (hf : IsF f) :
    flag (h ||| m) f = (flag h f || decide (f = m)) := by
  rw [flag_or]
  rcases hm with rfl | rfl <;> rcases hf with rfl | rfl | rfl
  · rw [flag_FF]; simp
  · rw [flag_FW]; simp [FETCHED, WRITTEN]
  · rw [flag_FS]; simp [FETCHED, HAS_SOURCE]
  · rw [flag_WF]; simp [FETCHED, WRITTEN]
  · rw [flag_WW]; simp
  · rw [flag_WS]; simp [WRITTEN, HAS_SOURCE]

theorem HdrOk.of_told {E : Env} {s s' : St} {k : Nat} {h : UInt8} (hh : HdrOk E s k h) (ht : s'.told = s.told) : HdrOk E s' k h :=
  ⟨by rw [ht]; exact hh.t, hh.i, hh.a⟩

theorem SecOk.of_told {E : Env} {s s' : St} {x : Nat} {v : Bytes} (hh : SecOk E s x v) (ht : s'.told = s.told) : SecOk E s' x v :=
  ⟨hh.valid, fun k hk hs => (hh.hdr k hk hs).of_told ht, hh.other⟩

/-! ## Asking -/

theorem HdrOk.mono {E : Env} {s : St} {k : Nat} {h : UInt8} {A' : UInt8 → Nat → Prop} (hh : HdrOk E s k h)
    (hA : ∀ f k, E.A f k → A' f k) : HdrOk { E with A := A' } s k h :=
  ⟨hh.t, hh.i, fun f hf h1 => (hh.a f hf h1).imp id (hA _ _)⟩

theorem Inv.ask {E : Env} {s : St} (h : Inv E s [] []) {A' : UInt8 → Nat → Prop} (hA : ∀ f k, E.A f k → A' f k) {q : List (Nat × UInt8)}
    (hq : ∀ k m, (k, m) ∈ q → k < E.hdrs0.length ∧ (m = FETCHED ∨ m = WRITTEN) ∧ A' m k) :
    Inv { E with A := A' } { s with queue := q } [] [] where
  len := h.len
  tl := h.tl
  hdr := fun k hk => (h.hdr k hk).mono hA |>.of_told rfl
  sv := fun x v hv => ⟨(h.sv x v hv).valid, fun k hk hs => ((h.sv x v hv).hdr k hk hs).mono hA |>.of_told rfl, (h.sv x v hv).other⟩
  dk := h.dk
  sn := h.sn
  q := hq
  upd := fun k u hu => by
    have h1 := h.upd k u hu
    exact ⟨h1.kn, h1.sector, h1.header, h1.mask, hA _ _ h1.ask, h1.untold, h1.busy, h1.wr, h1.fl, h1.fn, h1.kern⟩
  own := h.own
  uq := h.uq
  uniq := h.uniq
  fnd := h.fnd
  bufx := h.bufx
  pd := h.pd
  pu := h.pu
  pf := h.pf
  fd := h.fd
  fu := h.fu

theorem Inv.mono {E : Env} {s : St} (h : Inv E s [] []) {A' : UInt8 → Nat → Prop} (hA : ∀ f k, E.A f k → A' f k) :
    Inv { E with A := A' } s [] [] :=
  h.ask hA (q := s.queue) fun k m hm => ⟨(h.q k m hm).1, (h.q k m hm).2.1, hA _ _ (h.q k m hm).2.2⟩

theorem Inv.setQueue {E : Env} {s : St} {pend fin : List Nat} (h : Inv E s pend fin) {q : List (Nat × UInt8)}
    (hq : ∀ k m, (k, m) ∈ q → k < E.hdrs0.length ∧ (m = FETCHED ∨ m = WRITTEN) ∧ E.A m k) : Inv E { s with queue := q } pend fin where
  len := h.len
  tl := h.tl
  hdr := fun k hk => (h.hdr k hk).of_told rfl
  sv := fun x v hv => (h.sv x v hv).of_told rfl
  dk := h.dk
  sn := h.sn
  q := hq
  upd := fun k u hu => by
    have h1 := h.upd k u hu
    exact ⟨h1.kn, h1.sector, h1.header, h1.mask, h1.ask, h1.untold, h1.busy, h1.wr, h1.fl, h1.fn, h1.kern⟩
  own := h.own
  uq := h.uq
  uniq := h.uniq
  fnd := h.fnd
  bufx := h.bufx
  pd := h.pd
  pu := h.pu
  pf := h.pf
  fd := h.fd
  fu := h.fu

/-! ## Starting updates -/

theorem Inv.of_begin1 {E : Env} {s : St} {pend : List Nat} (h : Inv E s pend []) {k : Nat} {m : UInt8} {b : Nat} {rest : List Nat}
    (hk : k < E.hdrs0.length) (hm : m = FETCHED ∨ m = WRITTEN) (hA : E.A m k) (hfree : s.free = b :: rest)
    (hbusy : s.busy (stripeIdToSector k) = false) (hflag : flag (s.hdrs.getD k 0) m = false) :
    Inv E (begin1 s k m b rest) (pend ++ [k]) [] := by
  have hk' : k < s.hdrs.length := by rw [h.len]; exact hk
  have hmF : IsF m := hm.elim Or.inl fun h => Or.inr (Or.inl h)
  have hfresh : ∀ k' u, s.updates k' = some u → u.sector ≠ stripeIdToSector k := fun k' u hu e => by
    have := (h.upd k' u hu).busy (by simp)
    rw [e, hbusy] at this; cases this
  have hnone : s.updates k = none := by
    cases hu : s.updates k with
    | none => rfl
    | some u => exact absurd (h.upd k u hu).sector (hfresh k u hu)
  have hhd : ∀ k', (s.hdrs.set k (s.hdrs.getD k 0 ||| m)).getD k' 0 = if k' = k then s.hdrs.getD k 0 ||| m else s.hdrs.getD k' 0 :=
    fun k' => getD_set _ _ _ _ hk'
  have hh : HdrOk E s k (s.hdrs.getD k 0 ||| m) := by
    have h0 := h.hdr k hk
    refine ⟨fun hh f hf ht h1 => ?_, fun f hf h1 => ?_, fun f hf h1 => ?_⟩
    · rw [set_flag hm hf, h0.t hh f hf ht h1]; rfl
    · rw [set_flag hm hf, h0.i f hf h1]; rfl
    · rw [set_flag hm hf] at h1
      simp only [Bool.or_eq_true, decide_eq_true_eq] at h1
      rcases h1 with h1 | h1
      · exact h0.a f hf h1
      · subst h1; exact Or.inr hA
  have hbn : b ∉ rest := by have := h.fnd; rw [hfree] at this; exact (List.nodup_cons.1 this).1
  have hup : ∀ k' u, (begin1 s k m b rest).updates k' = some u →
      (k' = k ∧ u = { buf := b, stage := .writing, header := s.hdrs.getD k 0 ||| m, mask := m, sector := stripeIdToSector k }) ∨
        (k' ≠ k ∧ s.updates k' = some u) := fun k' u hu => by
    by_cases e : k' = k
    · subst e
      simp only [MetaRing.begin1, put_self, Option.some.injEq] at hu
      exact Or.inl ⟨rfl, hu.symm⟩
    · simp only [MetaRing.begin1, put_ne _ _ e] at hu
      exact Or.inr ⟨e, hu⟩
  have himg : ∀ k' u, s.updates k' = some u → img (begin1 s k m b rest) k' = img s k' := fun k' u hu => by
    have := hfresh k' u hu
    rw [(h.upd k' u hu).sector] at this
    exact img_set_ne s _ this
  have hbuf : ∀ k' u, s.updates k' = some u → u.stage = .writing → u.buf ≠ b := fun k' u hu hs e => by
    have := ((h.upd k' u hu).wr hs).2
    rw [hfree, e] at this; simp at this
  refine { len := ?_, tl := h.tl, hdr := ?_, sv := ?_, dk := h.dk, sn := h.sn, q := h.q, upd := ?_, own := ?_, uq := h.uq, uniq := ?_, fnd := ?_,
           bufx := ?_, pd := ?_, pu := ?_, pf := fun _ _ => by simp, fd := List.nodup_nil, fu := fun _ hx => by simp at hx }
  · simp [MetaRing.begin1, h.len]
  · intro k' hk2
    have e : (begin1 s k m b rest).hdrs.getD k' 0 = _ := hhd k'
    rw [e]
    by_cases hkk : k' = k
    · subst hkk; simp only [if_true]; exact hh.of_told rfl
    · simp only [hkk, if_false]; exact (h.hdr k' hk2).of_told rfl
  · exact fun x v hv => (h.sv x v hv).of_told rfl
  · intro k' u hu
    rcases hup k' u hu with ⟨rfl, rfl⟩ | ⟨hne, hu'⟩
    · refine ⟨hk, rfl, ?_, hm, hA, ?_, fun _ => ?_, fun _ => ?_, fun hs => by simp at hs, fun hx => by simp at hx, fun _ hp => absurd ?_ hp⟩
      · have e : (begin1 s k' m b rest).hdrs.getD k' 0 = _ := hhd k'
        rw [e]; simp
      · refine ⟨fun hh ht => ?_, ?_⟩
        · cases hx : flag hh m with
          | false => rfl
          | true => rw [(h.hdr k' hk).t hh m hmF ht hx] at hflag; cases hflag
        · cases hx : flag (E.hdrs0.getD k' 0) m with
          | false => rfl
          | true => rw [(h.hdr k' hk).i m hmF hx] at hflag; cases hflag
      · simp [MetaRing.begin1, put_self]
      · refine ⟨?_, hbn⟩
        simp only [MetaRing.begin1, put_self]; rfl
      · simp
    · have h1 := h.upd k' u hu'
      have e : (begin1 s k m b rest).hdrs.getD k' 0 = _ := hhd k'
      refine ⟨h1.kn, h1.sector, ?_, h1.mask, h1.ask, h1.untold, fun hx => ?_, fun hs => ?_, fun hs => ?_, fun hx => by simp at hx,
        fun hx hp => ?_⟩
      · rw [e, if_neg hne]; exact h1.header
      · simp only [MetaRing.begin1, put_ne _ _ (hfresh k' u hu')]; exact h1.busy hx
      · rw [himg k' u hu']
        refine ⟨?_, fun hx => (h1.wr hs).2 (by rw [hfree]; exact List.mem_cons_of_mem _ hx)⟩
        simp only [MetaRing.begin1, put_ne _ _ (hbuf k' u hu' hs)]; exact (h1.wr hs).1
      · rw [himg k' u hu']; exact h1.fl hs
      · have := h1.kern hx (fun hx => hp (by simp [hx]))
        unfold KernOk at this ⊢
        rw [himg k' u hu']
        exact this
  · intro e he
    obtain ⟨u, hu, hp, hf⟩ := h.own e he
    have hne : e.1 ≠ k := fun hx => by rw [hx, hnone] at hu; cases hu
    refine ⟨u, ?_, ?_, hf⟩
    · simp only [MetaRing.begin1, put_ne _ _ hne]; exact hu
    · simp [hp, hne]
  · intro k1 u1 k2 u2 h1 h2 he
    rcases hup k1 u1 h1 with ⟨rfl, rfl⟩ | ⟨n1, h1'⟩ <;> rcases hup k2 u2 h2 with ⟨rfl, rfl⟩ | ⟨n2, h2'⟩
    · rfl
    · exact absurd he.symm (hfresh _ _ h2')
    · exact absurd he (hfresh _ _ h1')
    · exact h.uniq _ _ _ _ h1' h2' he
  · have := h.fnd; rw [hfree] at this; exact (List.nodup_cons.1 this).2
  · intro k1 u1 k2 u2 h1 h2 s1 s2 he
    rcases hup k1 u1 h1 with ⟨rfl, rfl⟩ | ⟨n1, h1'⟩ <;> rcases hup k2 u2 h2 with ⟨rfl, rfl⟩ | ⟨n2, h2'⟩
    · rfl
    · exact absurd he.symm (hbuf _ _ h2' s2)
    · exact absurd he (hbuf _ _ h1' s1)
    · exact h.bufx _ _ _ _ h1' h2' s1 s2 he
  · rw [List.nodup_append]
    refine ⟨h.pd, by simp, fun x hx y hy => ?_⟩
    simp at hy
    subst hy
    intro e
    subst e
    obtain ⟨u, hu⟩ := h.pu x hx
    rw [hnone] at hu; cases hu
  · intro x hx
    simp only [List.mem_append, List.mem_singleton] at hx
    by_cases e : x = k
    · subst e; exact ⟨_, put_self _ _ _⟩
    · obtain ⟨u, hu⟩ := h.pu x (hx.resolve_right e)
      exact ⟨u, by simp only [MetaRing.begin1, put_ne _ _ e]; exact hu⟩

/-- The entries of updates that wait for their submission. -/
def Entries (s : St) (new : List (Nat × Sqe)) : Prop :=
  ∀ e, e ∈ new → ∃ u, s.updates e.1 = some u ∧ e.2 = (match u.stage with | .writing => Sqe.write u.sector u.buf | .flushing => .flush)

theorem startLoop_inv {E : Env} (q : List (Nat × UInt8)) : ∀ {s : St} {pend : List Nat} {old new : List (Nat × Sqe)}, Inv E s pend [] →
    (∀ k m, (k, m) ∈ q → k < E.hdrs0.length ∧ (m = FETCHED ∨ m = WRITTEN) ∧ E.A m k) →
    s.ring = old ++ new → new.map Prod.fst = pend → Entries s new → (∀ k, k ∈ pend → ∀ u, s.updates k = some u → u.stage = .writing) →
    Inv E (startLoop q s).1 (pend ++ (startLoop q s).2) [] ∧
      ∃ new', (startLoop q s).1.ring = old ++ new' ∧ new'.map Prod.fst = pend ++ (startLoop q s).2 ∧ Entries (startLoop q s).1 new' ∧
        ∀ k, k ∈ pend ++ (startLoop q s).2 → ∀ u, (startLoop q s).1.updates k = some u → u.stage = .writing := by
  induction q with
  | nil =>
    intro s pend old new h hq hr hn he hw
    simp only [startLoop, List.append_nil]
    exact ⟨h.setQueue (by simp), new, hr, hn, he, hw⟩
  | cons km q ih =>
    obtain ⟨k, m⟩ := km
    intro s pend old new h hq hr hn he hw
    have hq' : ∀ k m, (k, m) ∈ q → k < E.hdrs0.length ∧ (m = FETCHED ∨ m = WRITTEN) ∧ E.A m k :=
      fun k m hm => hq k m (List.mem_cons_of_mem _ hm)
    have hset := h.setQueue hq
    unfold startLoop
    cases hf : s.free with
    | nil => simp only [List.append_nil]; rw [hf] at hset; exact ⟨hset, new, hr, hn, he, hw⟩
    | cons b rest =>
      simp only
      cases hb : s.busy (stripeIdToSector k) with
      | true => simp only [if_true, List.append_nil]; rw [hf] at hset; exact ⟨hset, new, hr, hn, he, hw⟩
      | false =>
        simp only [Bool.false_eq_true, if_false]
        cases hfl : flag (s.hdrs.getD k 0) m with
        | true => simp only [if_true]; exact ih h hq' hr hn he hw
        | false =>
          simp only [Bool.false_eq_true, if_false]
          obtain ⟨hk, hm, hA⟩ := hq k m (by simp)
          have h1 := h.of_begin1 hk hm hA hf hb hfl
          have hne : ∀ e, e ∈ new → e.1 ≠ k := fun e hx hk' => by
            have : k ∈ pend := by rw [← hn, ← hk']; exact List.mem_map_of_mem hx
            have hnd := h1.pd
            rw [List.nodup_append] at hnd
            exact hnd.2.2 k this k (by simp) rfl
          have h2 := ih (s := begin1 s k m b rest) (pend := pend ++ [k]) (old := old)
            (new := new ++ [(k, .write (stripeIdToSector k) b)]) h1 hq' (by simp [begin1, hr]) (by simp [hn])
            (fun e hx => by
              rcases List.mem_append.1 hx with hx | hx
              · obtain ⟨u, hu, h3⟩ := he e hx
                exact ⟨u, by simp only [begin1, put_ne _ _ (hne e hx)]; exact hu, h3⟩
              · simp only [List.mem_singleton] at hx
                subst hx
                exact ⟨_, put_self _ _ _, rfl⟩)
            (fun k' hk' u hu => by
              by_cases e : k' = k
              · subst e
                simp only [begin1, put_self, Option.some.injEq] at hu
                rw [← hu]
              · simp only [begin1, put_ne _ _ e] at hu
                simp only [List.mem_append, List.mem_singleton, e, or_false] at hk'
                exact hw k' hk' u hu)
          simpa only [List.append_assoc, List.singleton_append] using h2

/-! ## Submitting -/

theorem accept_fst (s : St) (e : Nat × Sqe) : (accept s e).1 = e.1 := by
  obtain ⟨k, sq⟩ := e
  cases sq <;> rfl

theorem Inv.of_submit {E : Env} {s : St} {pend : List Nat} (h : Inv E s pend []) (hr : s.ring.map Prod.fst = pend) (he : Entries s s.ring) :
    Inv E (submit s) [] [] := by
  have hfst : (s.ring.map (accept s)).map Prod.fst = pend := by
    rw [← hr, List.map_map]
    apply List.map_congr_left
    intro e _
    exact accept_fst s e
  refine { len := h.len, tl := h.tl, hdr := fun k hk => (h.hdr k hk).of_told rfl, sv := fun x v hv => (h.sv x v hv).of_told rfl, dk := h.dk, sn := ?_,
           q := h.q, upd := ?_, own := ?_, uq := ?_, uniq := h.uniq, fnd := h.fnd, bufx := h.bufx, pd := List.nodup_nil,
           pu := fun _ hx => by simp at hx, pf := fun _ hx => by simp at hx, fd := List.nodup_nil, fu := fun _ hx => by simp at hx }
  · intro k snap hm x
    simp only [MetaRing.submit, List.mem_append, List.mem_map] at hm
    rcases hm with hm | ⟨⟨k', sq⟩, hm, e⟩
    · exact h.sn k snap hm x
    · cases sq with
      | write y b => simp [accept] at e
      | flush =>
        simp only [accept, Prod.mk.injEq, KOp.flush.injEq] at e
        obtain ⟨_, e, _⟩ := e
        subst e
        rfl
  · intro k u hu
    have h1 := h.upd k u hu
    refine ⟨h1.kn, h1.sector, h1.header, h1.mask, h1.ask, h1.untold, h1.busy, h1.wr, h1.fl, h1.fn, fun hx _ => ?_⟩
    by_cases hp : k ∈ pend
    · rw [← hr] at hp
      obtain ⟨e, hm, rfl⟩ := List.mem_map.1 hp
      obtain ⟨u', hu', h2⟩ := he e hm
      have e1 : s.updates e.1 = some u := hu
      rw [e1] at hu'
      cases hu'
      have hin : accept s e ∈ (MetaRing.submit s).kern := by
        simp only [MetaRing.submit, List.mem_append]; exact Or.inr (List.mem_map_of_mem hm)
      obtain ⟨k, sq⟩ := e
      unfold KernOk
      cases hs : u.stage with
      | writing =>
        simp only [hs] at h2
        subst h2
        exact ⟨false, hin, by simp⟩
      | flushing =>
        simp only [hs] at h2
        subst h2
        exact ⟨_, false, hin, fun v hv => hv.trans (h1.fl hs), by simp⟩
    · have := h1.kern hx hp
      unfold KernOk at this ⊢
      cases hs : u.stage with
      | writing =>
        simp only [hs] at this ⊢
        obtain ⟨d, hm, hd⟩ := this
        exact ⟨d, by simp only [MetaRing.submit, List.mem_append]; exact Or.inl hm, hd⟩
      | flushing =>
        simp only [hs] at this ⊢
        obtain ⟨sn, d, hm, hd⟩ := this
        exact ⟨sn, d, by simp only [MetaRing.submit, List.mem_append]; exact Or.inl hm, hd⟩
  · intro e hm
    simp only [MetaRing.submit, List.mem_append, List.mem_map] at hm
    rcases hm with hm | ⟨e', hm, rfl⟩
    · obtain ⟨u, hu, _, _⟩ := h.own e hm
      exact ⟨u, hu, by simp, by simp⟩
    · obtain ⟨u, hu, _⟩ := he e' hm
      rw [accept_fst]
      exact ⟨u, hu, by simp, by simp⟩
  · simp only [MetaRing.submit, List.map_append]
    rw [List.nodup_append]
    refine ⟨h.uq, by rw [hfst]; exact h.pd, fun x hx y hy e => ?_⟩
    subst e
    rw [hfst] at hy
    obtain ⟨e, hm, rfl⟩ := List.mem_map.1 hx
    obtain ⟨_, _, hp, _⟩ := h.own e hm
    exact hp hy

/-! ## Giving up an update -/

/-- Removing update `k` and its flag keeps what is known of the others. -/
theorem Inv.remove {E : Env} {s s' : St} {pend pend' fin fin' : List Nat} {k : Nat} {u : Update} (h : Inv E s pend fin) (hu : s.updates k = some u)
    (hfin : k ∉ fin) (hp : ∀ x, x ∈ pend' ↔ x ∈ pend ∧ x ≠ k) (hpd : pend'.Nodup) (hf : fin' = fin)
    (ehdrs : s'.hdrs = s.hdrs.set k (s.hdrs.getD k 0 &&& ~~~u.mask)) (eupd : s'.updates = put s.updates k none)
    (ebusy : s'.busy = put s.busy u.sector false) (eq : s'.queue = s.queue)
    (efree : s'.free = if u.stage = .writing then s.free ++ [u.buf] else s.free) (ebufs : s'.bufs = s.bufs)
    (edisk : s'.disk = s.disk) (esurv : s'.surv = s.surv) (etold : s'.told = s.told)
    (ek1 : ∀ e, e ∈ s'.kern → e ∈ s.kern ∧ e.1 ≠ k) (ek2 : ∀ e, e ∈ s.kern → e.1 ≠ k → e ∈ s'.kern) (ekn : (s'.kern.map Prod.fst).Nodup) :
    Inv E s' pend' fin' := by
  subst hf
  have hU := h.upd k u hu
  have hk' : k < s.hdrs.length := by rw [h.len]; exact hU.kn
  have hhd : ∀ k', s'.hdrs.getD k' 0 = if k' = k then s.hdrs.getD k 0 &&& ~~~u.mask else s.hdrs.getD k' 0 :=
    fun k' => by rw [ehdrs]; exact getD_set _ _ _ _ hk'
  have hup : ∀ k' u', s'.updates k' = some u' → k' ≠ k ∧ s.updates k' = some u' := fun k' u' h1 => by
    rw [eupd] at h1
    by_cases e : k' = k
    · subst e; rw [put_self] at h1; cases h1
    · rw [put_ne _ _ e] at h1; exact ⟨e, h1⟩
  have hsec : ∀ k' u', k' ≠ k → s.updates k' = some u' → u'.sector ≠ u.sector := fun k' u' hne h1 e => hne (h.uniq _ _ _ _ h1 hu e)
  have himg : ∀ k' u', k' ≠ k → s.updates k' = some u' → img s' k' = img s k' := fun k' u' hne h1 => by
    have := hsec k' u' hne h1
    rw [(h.upd k' u' h1).sector, hU.sector] at this
    unfold img
    rw [ehdrs]
    exact img_set_ne s _ this
  have hm := hU.mask
  have hmF : IsF u.mask := hm.elim Or.inl fun h => Or.inr (Or.inl h)
  refine { len := ?_, tl := by rw [etold]; exact h.tl, hdr := ?_, sv := ?_, dk := ?_, sn := ?_, q := by rw [eq]; exact h.q, upd := ?_, own := ?_, uq := ekn, uniq := ?_, fnd := ?_,
           bufx := ?_, pd := hpd, pu := ?_, pf := fun x hx => h.pf x ((hp x).1 hx).1, fd := h.fd, fu := ?_ }
  · rw [ehdrs]; simp [h.len]
  · intro k' hk2
    rw [hhd]
    by_cases hkk : k' = k
    · subst hkk
      simp only [if_true]
      have h0 := h.hdr k' hk2
      refine ⟨fun hh f hf ht h1 => ?_, fun f hf h1 => ?_, fun f hf h1 => ?_⟩
      · rw [etold] at ht
        rw [clear_flag hm hf, h0.t hh f hf ht h1]
        by_cases e : f = u.mask
        · subst e; rw [hU.untold.1 hh ht] at h1; cases h1
        · simp [e]
      · rw [clear_flag hm hf, h0.i f hf h1]
        by_cases e : f = u.mask
        · subst e; rw [hU.untold.2] at h1; cases h1
        · simp [e]
      · rw [clear_flag hm hf] at h1
        simp only [Bool.and_eq_true] at h1
        exact h0.a f hf h1.1
    · simp only [hkk, if_false]; exact (h.hdr k' hk2).of_told etold
  · intro x v hv; rw [esurv] at hv; exact (h.sv x v hv).of_told etold
  · intro x; rw [esurv, edisk]; exact h.dk x
  · intro k' snap hm' x; rw [edisk]; exact h.sn k' snap (ek1 _ hm').1 x
  · intro k' u' h1
    obtain ⟨hne, h2⟩ := hup k' u' h1
    have h3 := h.upd k' u' h2
    have hs := hsec k' u' hne h2
    refine ⟨h3.kn, h3.sector, ?_, h3.mask, h3.ask, by rw [etold]; exact h3.untold, fun hx => ?_, fun hw => ?_, fun hs => ?_, fun hx => ?_,
      fun hx hp' => ?_⟩
    · rw [hhd, if_neg hne]; exact h3.header
    · rw [ebusy, put_ne _ _ hs]; exact h3.busy hx
    · rw [himg k' u' hne h2, ebufs]
      refine ⟨(h3.wr hw).1, ?_⟩
      rw [efree]
      by_cases hst : u.stage = .writing
      · simp only [hst, if_true, List.mem_append, List.mem_singleton, not_or]
        exact ⟨(h3.wr hw).2, fun e => hne (h.bufx _ _ _ _ h2 hu hw hst e)⟩
      · simp only [hst, if_false]; exact (h3.wr hw).2
    · rw [himg k' u' hne h2, edisk]; exact h3.fl hs
    · rw [himg k' u' hne h2, esurv]; exact h3.fn hx
    · have := h3.kern hx (fun hx => hp' ((hp k').2 ⟨hx, hne⟩))
      unfold KernOk at this ⊢
      rw [himg k' u' hne h2, edisk, esurv]
      cases hst : u'.stage with
      | writing =>
        simp only [hst] at this ⊢
        obtain ⟨d, h4, h5⟩ := this
        exact ⟨d, ek2 _ h4 hne, h5⟩
      | flushing =>
        simp only [hst] at this ⊢
        obtain ⟨sn, d, h4, h5⟩ := this
        exact ⟨sn, d, ek2 _ h4 hne, h5⟩
  · intro e he
    obtain ⟨h1, h2⟩ := ek1 e he
    obtain ⟨u', h3, h4, h5⟩ := h.own e h1
    exact ⟨u', by rw [eupd, put_ne _ _ h2]; exact h3, fun hx => h4 ((hp _).1 hx).1, h5⟩
  · intro k1 u1 k2 u2 h1 h2 he
    exact h.uniq _ _ _ _ (hup _ _ h1).2 (hup _ _ h2).2 he
  · rw [efree]
    by_cases hst : u.stage = .writing
    · simp only [hst, if_true]
      rw [List.nodup_append]
      refine ⟨h.fnd, by simp, fun x hx y hy e => ?_⟩
      simp only [List.mem_singleton] at hy
      subst hy; subst e
      exact (hU.wr hst).2 hx
    · simp only [hst, if_false]; exact h.fnd
  · intro k1 u1 k2 u2 h1 h2
    exact h.bufx _ _ _ _ (hup _ _ h1).2 (hup _ _ h2).2
  · intro x hx
    obtain ⟨h1, h2⟩ := (hp x).1 hx
    obtain ⟨u', h3⟩ := h.pu x h1
    exact ⟨u', by rw [eupd, put_ne _ _ h2]; exact h3⟩
  · intro x hx
    obtain ⟨u', h3⟩ := h.fu x hx
    have : x ≠ k := fun e => hfin (by rw [← e]; exact hx)
    exact ⟨u', by rw [eupd, put_ne _ _ this]; exact h3⟩

theorem Inv.of_cleanup1 {E : Env} {s : St} {k : Nat} {pend : List Nat} {rb : Bool} (h : Inv E s (k :: pend) [])
    (hst : ∀ u, s.updates k = some u → (u.stage = .writing ↔ rb = true)) : Inv E (cleanup1 s k rb) pend [] := by
  obtain ⟨u, hu⟩ := h.pu k (by simp)
  have hnd := List.nodup_cons.1 h.pd
  have hown : ∀ e, e ∈ s.kern → e.1 ≠ k := fun e he hx => by
    obtain ⟨_, _, h1, _⟩ := h.own e he
    exact h1 (by rw [hx]; simp)
  refine h.remove hu (by simp) (fun x => ?_) hnd.2 rfl ?_ ?_ ?_ ?_ ?_ ?_ ?_ ?_ ?_ ?_ ?_ ?_
  all_goals try simp only [cleanup1, hu]
  · constructor
    · intro hx
      exact ⟨List.mem_cons_of_mem _ hx, fun e => hnd.1 (by rw [← e]; exact hx)⟩
    · rintro ⟨hx, hne⟩
      rcases List.mem_cons.1 hx with hx | hx
      · exact absurd hx hne
      · exact hx
  · have := hst u hu
    cases rb
    · simp at this; simp [this]
    · simp at this; simp [this]
  · exact fun e he => ⟨he, hown e he⟩
  · exact fun e he _ => he
  · exact h.uq

theorem Inv.of_cleanup {E : Env} {rb : Bool} (pend : List Nat) : ∀ {s : St}, Inv E s pend [] →
    (∀ k, k ∈ pend → ∀ u, s.updates k = some u → (u.stage = .writing ↔ rb = true)) → Inv E (cleanup s pend rb) [] [] := by
  induction pend with
  | nil => intro s h _; exact h
  | cons k pend ih =>
    intro s h hst
    have h1 := h.of_cleanup1 (hst k (by simp))
    refine ih h1 fun k' hk' u hu => ?_
    have hne : k' ≠ k := fun e => (List.nodup_cons.1 h.pd).1 (by rw [← e]; exact hk')
    have : s.updates k' = some u := by
      change (cleanup1 s k rb).updates k' = some u at hu
      unfold cleanup1 at hu
      cases hx : s.updates k with
      | none => rw [hx] at hu; exact hu
      | some u' => rw [hx] at hu; simp only [put_ne _ _ hne] at hu; exact hu
    exact hst k' (List.mem_cons_of_mem _ hk') u this

theorem Inv.of_startWrites {E : Env} {s : St} (h : Inv E s [] []) (ok : Bool) (hr : ok = true → s.ring = []) :
    Inv E (startWrites s ok) [] [] := by
  obtain ⟨h1, new, h2, h3, h4, h5⟩ := startLoop_inv s.queue (old := s.ring) (new := []) h h.q (by simp) rfl (fun _ hx => by simp at hx)
    (fun _ hx => by simp at hx)
  simp only [List.nil_append] at h1 h3 h5
  unfold startWrites
  simp only
  by_cases he : (startLoop s.queue s).2 = []
  · simp only [he, if_true]
    rw [he] at h1
    exact h1
  · simp only [he, if_false]
    cases ok with
    | false =>
      simp only [Bool.false_eq_true, if_false]
      exact h1.of_cleanup _ fun k hk u hu => by simp [h5 k hk u hu]
    | true =>
      simp only [if_true]
      rw [hr rfl, List.nil_append] at h2
      exact h1.of_submit (by rw [h2]; exact h3) (by rw [h2]; exact h4)

/-! ## Answers -/

theorem mem_erase {l : List (Nat × KOp)} {i : Nat} {e : Nat × KOp} (hn : (l.map Prod.fst).Nodup) (he : l[i]? = some e) (x : Nat × KOp) :
    x ∈ l.eraseIdx i ↔ x ∈ l ∧ x.1 ≠ e.1 := by
  rw [List.mem_eraseIdx_iff_getElem?]
  constructor
  · rintro ⟨j, hj, hx⟩
    refine ⟨List.mem_of_getElem? hx, fun hf => hj ?_⟩
    have h1 : (l.map Prod.fst)[j]? = some x.1 := by rw [List.getElem?_map, hx]; rfl
    have h2 : (l.map Prod.fst)[i]? = some e.1 := by rw [List.getElem?_map, he]; rfl
    have hlt : j < (l.map Prod.fst).length := by
      have := List.getElem?_eq_some_iff.1 h1
      exact this.1
    exact (List.getElem?_inj hlt hn).1 (by rw [h1, h2, hf])
  · rintro ⟨hx, hne⟩
    obtain ⟨j, hj⟩ := List.getElem?_of_mem hx
    refine ⟨j, fun e' => hne ?_, hj⟩
    rw [e', he] at hj
    cases hj; rfl

theorem erase_nodup {l : List (Nat × KOp)} {i : Nat} (hn : (l.map Prod.fst).Nodup) : ((l.eraseIdx i).map Prod.fst).Nodup :=
  hn.sublist ((List.eraseIdx_sublist l i).map _)

theorem fst_inj {l : List (Nat × KOp)} (hn : (l.map Prod.fst).Nodup) {a b : Nat × KOp} (ha : a ∈ l) (hb : b ∈ l) (h : a.1 = b.1) : a = b := by
  obtain ⟨i, hi⟩ := List.getElem?_of_mem ha
  obtain ⟨j, hj⟩ := List.getElem?_of_mem hb
  have h1 : (l.map Prod.fst)[i]? = some a.1 := by rw [List.getElem?_map, hi]; rfl
  have h2 : (l.map Prod.fst)[j]? = some b.1 := by rw [List.getElem?_map, hj]; rfl
  have := (List.getElem?_inj (List.getElem?_eq_some_iff.1 h1).1 hn).1 (by rw [h1, h2, h] : (l.map Prod.fst)[i]? = (l.map Prod.fst)[j]?)
  subst this
  rw [hi] at hj
  cases hj; rfl

/-- What is known inside the loop of `poll_channel`. -/
structure PollInv (E : Env) (old : List (Nat × Sqe)) (p : Poll) (l : List (Nat × KOp)) : Prop where
  inv : Inv E { p.s with kern := l } p.flushing (p.finished.map Prod.fst)
  fin : ∀ k h, (k, h) ∈ p.finished → ∀ u, p.s.updates k = some u → u.header = h
  ring : ∃ new, p.s.ring = old ++ new ∧ new.map Prod.fst = p.flushing ∧ Entries p.s new
  fl : ∀ k, k ∈ p.flushing → ∀ u, p.s.updates k = some u → u.stage = .flushing

theorem PollInv.of_poll1 {E : Env} {old : List (Nat × Sqe)} {p : Poll} {l : List (Nat × KOp)} (h : PollInv E old p l) {i k : Nat} {op : KOp} {ok : Bool}
    (hi : l[i]? = some (k, op)) (hd : ok = true → op.done = true) : PollInv E old (poll1 p k ok) (l.eraseIdx i) := by
  have hin : (k, op) ∈ l := List.mem_of_getElem? hi
  obtain ⟨u, hu, hnp, hnf⟩ := h.inv.own (k, op) hin
  simp only at hu hnp hnf
  have hU := h.inv.upd k u hu
  have hK := hU.kern hnf hnp
  obtain ⟨new, hr1, hr2, hr3⟩ := h.ring
  have hnew : ∀ e, e ∈ new → e.1 ≠ k := fun e he hx => hnp (by rw [← hr2, ← hx]; exact List.mem_map_of_mem he)
  have hfinne : ∀ k' h', (k', h') ∈ p.finished → k' ≠ k := fun k' h' hm hx =>
    hnf (by rw [← hx]; exact List.mem_map.2 ⟨_, hm, rfl⟩)
  have hel := fun x => mem_erase h.inv.uq hi x
  cases ok with
  | false =>
    have hp1 : poll1 p k false = { p with s := { p.s with
        hdrs := p.s.hdrs.set k (p.s.hdrs.getD k 0 &&& ~~~u.mask)
        free := if u.stage = .writing then p.s.free ++ [u.buf] else p.s.free
        busy := put p.s.busy u.sector false
        updates := put p.s.updates k none } } := by
      simp only [poll1, hu]; rfl
    have hup : ∀ k' u', (poll1 p k false).s.updates k' = some u' → p.s.updates k' = some u' := fun k' u' h1 => by
      rw [hp1] at h1
      by_cases e : k' = k
      · subst e; simp only [put_self] at h1; cases h1
      · simp only [put_ne _ _ e] at h1; exact h1
    refine ⟨?_, fun k' h' hm u' hu' => ?_, ⟨new, ?_, ?_, fun e he => ?_⟩, fun k' hk' u' hu' => ?_⟩
    · rw [hp1]
      refine h.inv.remove hu hnf (fun x => ?_) h.inv.pd rfl rfl rfl rfl rfl rfl rfl rfl rfl rfl ?_ ?_ (erase_nodup h.inv.uq)
      · exact ⟨fun hx => ⟨hx, fun e => hnp (by rw [← e]; exact hx)⟩, fun hx => hx.1⟩
      · exact fun e he => (hel e).1 he
      · exact fun e he hne => (hel e).2 ⟨he, hne⟩
    · rw [hp1] at hm
      exact h.fin k' h' hm u' (hup _ _ hu')
    · rw [hp1]; exact hr1
    · rw [hp1]; exact hr2
    · obtain ⟨u', h1, h2⟩ := hr3 e he
      exact ⟨u', by rw [hp1]; simp only [put_ne _ _ (hnew e he)]; exact h1, h2⟩
    · rw [hp1] at hk'
      exact h.fl k' hk' u' (hup _ _ hu')
  | true =>
    have hdone := hd rfl
    cases hs : u.stage with
    | writing =>
      have hp1 : poll1 p k true = { p with
          s := { p.s with
            free := p.s.free ++ [u.buf]
            ring := p.s.ring ++ [(k, .flush)]
            updates := put p.s.updates k (some { u with stage := .flushing }) }
          flushing := p.flushing ++ [k] } := by
        simp only [poll1, hu, hs, if_true]
      have hdisk : p.s.disk u.sector = img p.s k := by
        unfold KernOk at hK
        rw [hs] at hK
        obtain ⟨d, h1, h2⟩ := hK
        have := fst_inj h.inv.uq hin h1 rfl
        cases this
        exact h2 hdone
      have hup : ∀ k' u', (put p.s.updates k (some { u with stage := .flushing })) k' = some u' →
          (k' = k ∧ u' = { u with stage := .flushing }) ∨ (k' ≠ k ∧ p.s.updates k' = some u') := fun k' u' h1 => by
        by_cases e : k' = k
        · subst e
          rw [put_self] at h1
          simp only [Option.some.injEq] at h1
          exact Or.inl ⟨rfl, h1.symm⟩
        · rw [put_ne _ _ e] at h1; exact Or.inr ⟨e, h1⟩
      rw [hp1]
      refine ⟨?_, fun k' h' hm u' hu' => ?_, ⟨new ++ [(k, .flush)], by simp [hr1], by simp [hr2], fun e he => ?_⟩, fun k' hk' u' hu' => ?_⟩
      · refine { len := h.inv.len, tl := h.inv.tl, hdr := fun k hk => (h.inv.hdr k hk).of_told rfl, sv := fun x v hv => (h.inv.sv x v hv).of_told rfl,
                 dk := h.inv.dk, sn := fun k' snap hm x => h.inv.sn k' snap ((hel _).1 hm).1 x, q := h.inv.q, upd := ?_, own := ?_,
                 uq := erase_nodup h.inv.uq, uniq := ?_, fnd := ?_, bufx := ?_, pd := ?_, pu := ?_, pf := ?_, fd := h.inv.fd, fu := ?_ }
        · intro k' u' h1
          rcases hup k' u' h1 with ⟨rfl, rfl⟩ | ⟨hne, h1⟩
          · exact ⟨hU.kn, hU.sector, hU.header, hU.mask, hU.ask, hU.untold, hU.busy, fun hx => by simp at hx, fun _ => hdisk,
              fun hx => absurd hx hnf, fun _ hx => absurd (by simp) hx⟩
          · have h2 := h.inv.upd k' u' h1
            refine ⟨h2.kn, h2.sector, h2.header, h2.mask, h2.ask, h2.untold, h2.busy, fun hw => ⟨(h2.wr hw).1, ?_⟩, h2.fl, h2.fn,
              fun hx hp => ?_⟩
            · simp only [List.mem_append, List.mem_singleton, not_or]
              exact ⟨(h2.wr hw).2, fun e => hne (h.inv.bufx _ _ _ _ h1 hu hw hs e)⟩
            · have h3 := h2.kern hx (fun hx => hp (by simp [hx]))
              unfold KernOk at h3 ⊢
              cases hst : u'.stage with
              | writing =>
                simp only [hst] at h3 ⊢
                obtain ⟨d, h4, h5⟩ := h3
                exact ⟨d, (hel _).2 ⟨h4, hne⟩, h5⟩
              | flushing =>
                simp only [hst] at h3 ⊢
                obtain ⟨sn, d, h4, h5⟩ := h3
                exact ⟨sn, d, (hel _).2 ⟨h4, hne⟩, h5⟩
        · intro e he
          obtain ⟨h1, h2⟩ := (hel e).1 he
          obtain ⟨u', h3, h4, h5⟩ := h.inv.own e h1
          refine ⟨u', ?_, ?_, h5⟩
          · simp only [put_ne _ _ h2]; exact h3
          · simp only [List.mem_append, List.mem_singleton, not_or]; exact ⟨h4, h2⟩
        · intro k1 u1 k2 u2 h1 h2 he
          rcases hup _ _ h1 with ⟨rfl, rfl⟩ | ⟨n1, h1'⟩ <;> rcases hup _ _ h2 with ⟨rfl, rfl⟩ | ⟨n2, h2'⟩
          · rfl
          · exact h.inv.uniq _ _ _ _ hu h2' he
          · exact h.inv.uniq _ _ _ _ h1' hu he
          · exact h.inv.uniq _ _ _ _ h1' h2' he
        · simp only
          rw [List.nodup_append]
          refine ⟨h.inv.fnd, by simp, fun x hx y hy e => ?_⟩
          simp only [List.mem_singleton] at hy
          subst hy; subst e
          exact (hU.wr hs).2 hx
        · intro k1 u1 k2 u2 h1 h2 s1 s2 he
          rcases hup _ _ h1 with ⟨rfl, rfl⟩ | ⟨n1, h1'⟩
          · simp at s1
          · rcases hup _ _ h2 with ⟨rfl, rfl⟩ | ⟨n2, h2'⟩
            · simp at s2
            · exact h.inv.bufx _ _ _ _ h1' h2' s1 s2 he
        · rw [List.nodup_append]
          refine ⟨h.inv.pd, by simp, fun x hx y hy e => ?_⟩
          simp only [List.mem_singleton] at hy
          subst hy; subst e
          exact hnp hx
        · intro x hx
          by_cases e : x = k
          · subst e; exact ⟨_, put_self _ _ _⟩
          · simp only [List.mem_append, List.mem_singleton, e, or_false] at hx
            obtain ⟨u', h1⟩ := h.inv.pu x hx
            exact ⟨u', by simp only [put_ne _ _ e]; exact h1⟩
        · intro x hx
          by_cases e : x = k
          · subst e; exact hnf
          · simp only [List.mem_append, List.mem_singleton, e, or_false] at hx
            exact h.inv.pf x hx
        · intro x hx
          obtain ⟨u', h1⟩ := h.inv.fu x hx
          have : x ≠ k := fun e => hnf (by rw [← e]; exact hx)
          exact ⟨u', by simp only [put_ne _ _ this]; exact h1⟩
      · simp only [put_ne _ _ (hfinne k' h' hm)] at hu'
        exact h.fin k' h' hm u' hu'
      · rcases List.mem_append.1 he with he | he
        · obtain ⟨u', h1, h2⟩ := hr3 e he
          exact ⟨u', by simp only [put_ne _ _ (hnew e he)]; exact h1, h2⟩
        · simp only [List.mem_singleton] at he
          subst he
          exact ⟨_, put_self _ _ _, rfl⟩
      · rcases hup _ _ hu' with ⟨rfl, rfl⟩ | ⟨hne, h1⟩
        · rfl
        · simp only [List.mem_append, List.mem_singleton, hne, or_false] at hk'
          exact h.fl k' hk' u' h1
    | flushing =>
      have hp1 : poll1 p k true = { p with
          s := { p.s with busy := put p.s.busy u.sector false }
          finished := p.finished ++ [(k, u.header)] } := by
        simp only [poll1, hu, hs, if_true]
      have hsurv : ∀ v, p.s.surv u.sector v → v = img p.s k := by
        unfold KernOk at hK
        rw [hs] at hK
        obtain ⟨sn, d, h1, _, h2⟩ := hK
        have := fst_inj h.inv.uq hin h1 rfl
        cases this
        exact h2 hdone
      rw [hp1]
      refine ⟨?_, fun k' h' hm u' hu' => ?_, ⟨new, hr1, hr2, hr3⟩, h.fl⟩
      · simp only [List.map_append, List.map_cons, List.map_nil]
        refine { len := h.inv.len, tl := h.inv.tl, hdr := fun k hk => (h.inv.hdr k hk).of_told rfl, sv := fun x v hv => (h.inv.sv x v hv).of_told rfl,
                 dk := h.inv.dk, sn := fun k' snap hm x => h.inv.sn k' snap ((hel _).1 hm).1 x, q := h.inv.q, upd := ?_, own := ?_,
                 uq := erase_nodup h.inv.uq, uniq := h.inv.uniq, fnd := h.inv.fnd, bufx := h.inv.bufx, pd := h.inv.pd, pu := h.inv.pu,
                 pf := ?_, fd := ?_, fu := ?_ }
        · intro k' u' h1
          have h2 := h.inv.upd k' u' h1
          refine ⟨h2.kn, h2.sector, h2.header, h2.mask, h2.ask, h2.untold, fun hx => ?_, h2.wr, h2.fl, fun hx => ?_, fun hx hp => ?_⟩
          · simp only [List.mem_append, List.mem_singleton, not_or] at hx
            have hne : u'.sector ≠ u.sector := fun e => hx.2 (h.inv.uniq _ _ _ _ h1 hu e)
            simp only [put_ne _ _ hne]
            exact h2.busy hx.1
          · by_cases e : k' = k
            · subst e
              have e2 : some u = some u' := hu.symm.trans h1
              cases e2
              exact ⟨hs, hsurv⟩
            · simp only [List.mem_append, List.mem_singleton, e, or_false] at hx
              exact h2.fn hx
          · simp only [List.mem_append, List.mem_singleton, not_or] at hx
            have h3 := h2.kern hx.1 hp
            unfold KernOk at h3 ⊢
            cases hst : u'.stage with
            | writing =>
              simp only [hst] at h3 ⊢
              obtain ⟨d, h4, h5⟩ := h3
              exact ⟨d, (hel _).2 ⟨h4, hx.2⟩, h5⟩
            | flushing =>
              simp only [hst] at h3 ⊢
              obtain ⟨sn, d, h4, h5⟩ := h3
              exact ⟨sn, d, (hel _).2 ⟨h4, hx.2⟩, h5⟩
        · intro e he
          obtain ⟨h1, h2⟩ := (hel e).1 he
          obtain ⟨u', h3, h4, h5⟩ := h.inv.own e h1
          refine ⟨u', h3, h4, ?_⟩
          simp only [List.mem_append, List.mem_singleton, not_or]; exact ⟨h5, h2⟩
        · intro x hx
          simp only [List.mem_append, List.mem_singleton, not_or]
          exact ⟨h.inv.pf x hx, fun e => hnp (by rw [← e]; exact hx)⟩
        · rw [List.nodup_append]
          refine ⟨h.inv.fd, by simp, fun x hx y hy e => ?_⟩
          simp only [List.mem_singleton] at hy
          subst hy; subst e
          exact hnf hx
        · intro x hx
          by_cases e : x = k
          · subst e; exact ⟨u, hu⟩
          · simp only [List.mem_append, List.mem_singleton, e, or_false] at hx
            exact h.inv.fu x hx
      · simp only [List.mem_append, List.mem_singleton, Prod.mk.injEq] at hm
        rcases hm with hm | ⟨rfl, rfl⟩
        · exact h.fin k' h' hm u' hu'
        · have e2 : some u = some u' := hu.symm.trans hu'
          cases e2
          rfl

theorem PollInv.loop {E : Env} {old : List (Nat × Sqe)} {l l' : List (Nat × KOp)} {cs : List (Nat × Bool)} (ht : Takes l cs l') :
    ∀ {p : Poll}, PollInv E old p l → PollInv E old (cs.foldl (fun p c => poll1 p c.1 c.2) p) l' := by
  induction ht with
  | nil l => intro p h; exact h
  | cons l i k op ok cs l' hi hd ht ih =>
    intro p h
    exact ih (h.of_poll1 hi hd)

theorem poll1_kern (p : Poll) (k : Nat) (ok : Bool) : (poll1 p k ok).s.kern = p.s.kern := by
  unfold poll1
  cases p.s.updates k with
  | none => rfl
  | some u =>
    simp only
    cases ok with
    | false => rfl
    | true =>
      simp only [if_true]
      cases u.stage <;> rfl

theorem loop_kern (cs : List (Nat × Bool)) : ∀ p : Poll, (cs.foldl (fun p c => poll1 p c.1 c.2) p).s.kern = p.s.kern := by
  induction cs with
  | nil => intro p; rfl
  | cons c cs ih => intro p; simp only [List.foldl_cons]; rw [ih, poll1_kern]

/-! ## Announcing -/

theorem Inv.of_tell1 {E : Env} {s : St} {pend fin : List Nat} {k : Nat} {hd : UInt8} (h : Inv E s pend (k :: fin))
    (he : ∀ u, s.updates k = some u → u.header = hd) :
    Inv E { s with updates := put s.updates k none, told := (k, hd) :: s.told } pend fin := by
  obtain ⟨u, hu⟩ := h.fu k (by simp)
  have hU := h.upd k u hu
  have hnd := List.nodup_cons.1 h.fd
  have hhd : hd = s.hdrs.getD k 0 := by rw [← he u hu]; exact hU.header
  have hsv := (hU.fn (by simp)).2
  have hup : ∀ k' u', (put s.updates k none) k' = some u' → k' ≠ k ∧ s.updates k' = some u' := fun k' u' h1 => by
    by_cases e : k' = k
    · subst e; rw [put_self] at h1; cases h1
    · rw [put_ne _ _ e] at h1; exact ⟨e, h1⟩
  have hmono : ∀ k' h', HdrOk E s k' h' → (k' = k → ∀ f, IsF f → flag hd f = true → flag h' f = true) →
      HdrOk E { s with updates := put s.updates k none, told := (k, hd) :: s.told } k' h' := fun k' h' h1 h2 => by
    refine ⟨fun hh f hf ht h3 => ?_, h1.i, h1.a⟩
    rcases List.mem_cons.1 ht with ht | ht
    · cases ht; exact h2 rfl f hf h3
    · exact h1.t hh f hf ht h3
  refine { len := h.len, tl := fun k' h' hm => (List.mem_cons.1 hm).elim (fun e => by cases e; exact hU.kn) (h.tl k' h'), hdr := fun k' hk' => hmono _ _ (h.hdr k' hk') ?_, sv := fun x v hv => ?_, dk := h.dk, sn := h.sn, q := h.q, upd := ?_,
           own := ?_, uq := h.uq, uniq := ?_, fnd := h.fnd, bufx := ?_, pd := h.pd, pu := ?_, pf := ?_, fd := hnd.2, fu := ?_ }
  · intro e f hf h1; subst e; rw [← hhd]; exact h1
  · have h1 := h.sv x v hv
    refine ⟨h1.valid, fun k' hk' hs => hmono _ _ (h1.hdr k' hk' hs) ?_, h1.other⟩
    intro e f hf h2
    subst e
    rw [← hU.sector] at hs
    subst hs
    rw [hsv v hv, img_byte (by rw [h.len]; exact hk') rfl, ← hhd]
    exact h2
  · intro k' u' h1
    obtain ⟨hne, h2⟩ := hup _ _ h1
    have h3 := h.upd k' u' h2
    refine ⟨h3.kn, h3.sector, h3.header, h3.mask, h3.ask, ⟨fun hh hm => ?_, h3.untold.2⟩, fun hx => h3.busy (by simp [hne, hx]), h3.wr, h3.fl,
      fun hx => h3.fn (by simp [hx]), fun hx => h3.kern (by simp [hne, hx])⟩
    rcases List.mem_cons.1 hm with hm | hm
    · cases hm; exact absurd rfl hne
    · exact h3.untold.1 hh hm
  · intro e he'
    obtain ⟨u', h1, h2, h3⟩ := h.own e he'
    simp only [List.mem_cons, not_or] at h3
    exact ⟨u', by simp only [put_ne _ _ h3.1]; exact h1, h2, h3.2⟩
  · intro k1 u1 k2 u2 h1 h2
    exact h.uniq _ _ _ _ (hup _ _ h1).2 (hup _ _ h2).2
  · intro k1 u1 k2 u2 h1 h2
    exact h.bufx _ _ _ _ (hup _ _ h1).2 (hup _ _ h2).2
  · intro x hx
    obtain ⟨u', h1⟩ := h.pu x hx
    have : x ≠ k := fun e => h.pf x hx (by simp [e])
    exact ⟨u', by simp only [put_ne _ _ this]; exact h1⟩
  · exact fun x hx hf => h.pf x hx (by simp [hf])
  · intro x hx
    obtain ⟨u', h1⟩ := h.fu x (by simp [hx])
    have : x ≠ k := fun e => hnd.1 (by rw [← e]; exact hx)
    exact ⟨u', by simp only [put_ne _ _ this]; exact h1⟩

theorem Inv.of_tell {E : Env} {pend : List Nat} (fin : List (Nat × UInt8)) : ∀ {s : St}, Inv E s pend (fin.map Prod.fst) →
    (∀ k h, (k, h) ∈ fin → ∀ u, s.updates k = some u → u.header = h) →
    Inv E (tell s fin) pend [] ∧ (tell s fin).ring = s.ring ∧ ∀ k, k ∉ fin.map Prod.fst → (tell s fin).updates k = s.updates k := by
  induction fin with
  | nil => intro s h _; exact ⟨h, rfl, fun _ _ => rfl⟩
  | cons kh fin ih =>
    obtain ⟨k, hd⟩ := kh
    intro s h he
    have h1 := Inv.of_tell1 h (he k hd (by simp))
    obtain ⟨h2, h3, h4⟩ := ih h1 fun k' h' hm u hu => by
      have hne : k' ≠ k := fun e => (List.nodup_cons.1 h.fd).1 (by rw [← e]; exact List.mem_map.2 ⟨_, hm, rfl⟩)
      simp only [put_ne _ _ hne] at hu
      exact he k' h' (List.mem_cons_of_mem _ hm) u hu
    refine ⟨h2, h3, fun x hx => ?_⟩
    simp only [List.map_cons, List.mem_cons, not_or] at hx
    exact (h4 x hx.2).trans (put_ne _ _ hx.1)

theorem Inv.of_poll {E : Env} {s : St} (h : Inv E s [] []) {cs : List (Nat × Bool)} {l : List (Nat × KOp)} (ht : Takes s.kern cs l) (ok : Bool)
    (hr : ok = true → s.ring = []) : Inv E (pollChannel { s with kern := l } cs ok) [] [] := by
  have h0 : PollInv E s.ring ⟨{ s with kern := l }, [], []⟩ s.kern :=
    ⟨h, fun _ _ hx => by simp at hx, ⟨[], by simp, rfl, fun _ hx => by simp at hx⟩, fun _ hx => by simp at hx⟩
  have h1 := PollInv.loop ht h0
  have hk := loop_kern cs ⟨{ s with kern := l }, [], []⟩
  unfold pollChannel
  simp only
  revert h1 hk
  generalize cs.foldl (fun p c => poll1 p c.1 c.2) ⟨{ s with kern := l }, [], []⟩ = p
  intro h1 hk
  simp only at hk
  have hinv : Inv E p.s p.flushing (p.finished.map Prod.fst) := by
    have := h1.inv
    rw [← hk] at this
    exact this
  obtain ⟨h2, h3, h4⟩ := Inv.of_tell _ hinv h1.fin
  obtain ⟨new, r1, r2, r3⟩ := h1.ring
  by_cases hf : p.flushing = []
  · simp only [hf, if_true]
    rw [hf] at h2
    exact h2
  · simp only [hf, if_false]
    have hst : ∀ k, k ∈ p.flushing → (tell p.s p.finished).updates k = p.s.updates k := fun k hk' => h4 k (hinv.pf k hk')
    cases ok with
    | false =>
      simp only [Bool.false_eq_true, if_false]
      refine h2.of_cleanup _ fun k hk' u hu => ?_
      rw [hst k hk'] at hu
      simp [h1.fl k hk' u hu]
    | true =>
      simp only [if_true]
      have hring : (tell p.s p.finished).ring = new := by rw [h3, r1, hr rfl]; rfl
      refine h2.of_submit (by rw [hring]; exact r2) (by
        rw [hring]
        intro e he
        obtain ⟨u, hu, h5⟩ := r3 e he
        exact ⟨u, by rw [hst e.1 (by rw [← r2]; exact List.mem_map_of_mem he)]; exact hu, h5⟩)

/-! ## The kernel -/

theorem mem_set {l : List (Nat × KOp)} {i : Nat} {k : Nat} {op op' : KOp} (hn : (l.map Prod.fst).Nodup) (hi : l[i]? = some (k, op))
    (x : Nat × KOp) : x ∈ l.set i (k, op') ↔ x = (k, op') ∨ (x ∈ l ∧ x.1 ≠ k) := by
  have hlt : i < l.length := (List.getElem?_eq_some_iff.1 hi).1
  constructor
  · intro hx
    obtain ⟨j, hj⟩ := List.getElem?_of_mem hx
    by_cases e : i = j
    · subst e
      rw [List.getElem?_set_self hlt] at hj
      cases hj; exact Or.inl rfl
    · rw [List.getElem?_set_ne e] at hj
      exact Or.inr ((mem_erase hn hi x).1 (List.mem_eraseIdx_iff_getElem?.2 ⟨j, fun h => e h.symm, hj⟩))
  · rintro (rfl | hx)
    · exact List.mem_of_getElem? (List.getElem?_set_self hlt)
    · obtain ⟨j, hj, hx⟩ := List.mem_eraseIdx_iff_getElem?.1 ((mem_erase hn hi x).2 hx)
      exact List.mem_of_getElem? (by rw [List.getElem?_set_ne (fun h => hj h.symm)]; exact hx)

theorem set_fst {l : List (Nat × KOp)} {i : Nat} {k : Nat} {op op' : KOp} (hi : l[i]? = some (k, op)) :
    (l.set i (k, op')).map Prod.fst = l.map Prod.fst := by
  rw [List.map_set]
  apply List.ext_getElem?
  intro j
  by_cases e : i = j
  · subst e
    have hlt : i < l.length := (List.getElem?_eq_some_iff.1 hi).1
    rw [List.getElem?_set_self (by simpa using hlt), List.getElem?_map, hi]
    rfl
  · rw [List.getElem?_set_ne e]

/-- What a flush under way may cover after sector `x` has become `w`. -/
def ext (x : Nat) (w : Bytes) (e : Nat × KOp) : Nat × KOp :=
  match e with
  | (k', .flush snap false) => (k', .flush (fun y v => snap y v ∨ (y = x ∧ v = w)) false)
  | e => e

theorem ext_fst (x : Nat) (w : Bytes) (e : Nat × KOp) : (ext x w e).1 = e.1 := by
  obtain ⟨k, op⟩ := e
  cases op with
  | write y b d => rfl
  | flush sn d => cases d <;> rfl

theorem exec_write {s : St} {i k x b : Nat} (hi : s.kern[i]? = some (k, .write x b false)) :
    exec s i = { s with
      disk := put s.disk x (s.bufs b)
      surv := fun y v => s.surv y v ∨ (y = x ∧ v = s.bufs b)
      kern := (s.kern.set i (k, .write x b true)).map (ext x (s.bufs b)) } := by
  unfold exec
  rw [hi]
  rfl

theorem exec_flush {s : St} {i k : Nat} {snap : Nat → Bytes → Prop} (hi : s.kern[i]? = some (k, .flush snap false)) :
    exec s i = { s with
      surv := fun y v => s.surv y v ∧ snap y v
      kern := s.kern.set i (k, .flush snap true) } := by
  unfold exec
  rw [hi]

theorem Inv.of_exec_write {E : Env} {s : St} (h : Inv E s [] []) {i k x b : Nat} (hi : s.kern[i]? = some (k, .write x b false)) :
    Inv E (exec s i) [] [] := by
  have hin := List.mem_of_getElem? hi
  obtain ⟨u, hu, _, _⟩ := h.own _ hin
  simp only at hu
  have hU := h.upd k u hu
  have hK := hU.kern (by simp) (by simp)
  obtain ⟨hs, rfl, rfl⟩ : u.stage = .writing ∧ u.sector = x ∧ u.buf = b := by
    unfold KernOk at hK
    cases hs : u.stage with
    | writing =>
      rw [hs] at hK
      obtain ⟨d, h1, _⟩ := hK
      cases fst_inj h.uq hin h1 rfl
      exact ⟨rfl, rfl, rfl⟩
    | flushing =>
      rw [hs] at hK
      obtain ⟨sn, d, h1, _⟩ := hK
      cases fst_inj h.uq hin h1 rfl
  have hbuf := (hU.wr hs).1
  rw [exec_write hi, hbuf]
  have hmem : ∀ e, e ∈ (s.kern.set i (k, .write u.sector u.buf true)).map (ext u.sector (img s k)) ↔
      e = (k, .write u.sector u.buf true) ∨ ∃ e', e' ∈ s.kern ∧ e'.1 ≠ k ∧ ext u.sector (img s k) e' = e := fun e => by
    rw [List.mem_map]
    constructor
    · rintro ⟨e', he', rfl⟩
      rcases (mem_set h.uq hi e').1 he' with rfl | ⟨h1, h2⟩
      · exact Or.inl rfl
      · exact Or.inr ⟨e', h1, h2, rfl⟩
    · rintro (rfl | ⟨e', h1, h2, rfl⟩)
      · exact ⟨_, (mem_set h.uq hi _).2 (Or.inl rfl), rfl⟩
      · exact ⟨e', (mem_set h.uq hi _).2 (Or.inr ⟨h1, h2⟩), rfl⟩
  have hsec : ∀ k' u', k' ≠ k → s.updates k' = some u' → u'.sector ≠ u.sector := fun k' u' hne h1 e => hne (h.uniq _ _ _ _ h1 hu e)
  refine { len := h.len, tl := h.tl, hdr := fun k hk => (h.hdr k hk).of_told rfl, sv := ?_, dk := ?_, sn := ?_, q := h.q, upd := ?_, own := ?_, uq := ?_,
           uniq := h.uniq, fnd := h.fnd, bufx := h.bufx, pd := h.pd, pu := h.pu, pf := h.pf, fd := h.fd, fu := h.fu }
  · rintro y v (hv | ⟨rfl, rfl⟩)
    · exact (h.sv y v hv).of_told rfl
    · have := h.imgOk hU.kn
      rw [← hU.sector] at this
      exact this.of_told rfl
  · intro y
    by_cases e : y = u.sector
    · subst e; exact Or.inr ⟨rfl, put_self _ _ _⟩
    · simp only [put_ne _ _ e]; exact Or.inl (h.dk y)
  · intro k' snap hm y
    rcases (hmem _).1 hm with hm | ⟨⟨k2, op⟩, h1, h2, h3⟩
    · cases hm
    · cases op with
      | write y b d => cases h3
      | flush sn d =>
        cases d with
        | true => cases h3
        | false =>
          simp only [ext, Prod.mk.injEq, KOp.flush.injEq] at h3
          obtain ⟨_, rfl, _⟩ := h3
          by_cases e : y = u.sector
          · subst e; exact Or.inr ⟨rfl, put_self _ _ _⟩
          · simp only [put_ne _ _ e]; exact Or.inl (h.sn _ _ h1 y)
  · intro k' u' h1
    have h2 := h.upd k' u' h1
    refine ⟨h2.kn, h2.sector, h2.header, h2.mask, h2.ask, h2.untold, h2.busy, h2.wr, fun hf => ?_, fun hx => by simp at hx, fun _ _ => ?_⟩
    · by_cases e : k' = k
      · subst e
        have e2 : some u = some u' := hu.symm.trans h1
        cases e2
        rw [hs] at hf; cases hf
      · simp only [put_ne _ _ (hsec k' u' e h1)]; exact h2.fl hf
    · by_cases e : k' = k
      · subst e
        have e2 : some u = some u' := hu.symm.trans h1
        cases e2
        unfold KernOk
        rw [hs]
        exact ⟨true, (hmem _).2 (Or.inl rfl), fun _ => put_self _ _ _⟩
      · have h3 := h2.kern (by simp) (by simp)
        have hne := hsec k' u' e h1
        unfold KernOk at h3 ⊢
        cases hst : u'.stage with
        | writing =>
          simp only [hst] at h3 ⊢
          obtain ⟨d, h4, h5⟩ := h3
          exact ⟨d, (hmem _).2 (Or.inr ⟨_, h4, e, rfl⟩), fun hd => by rw [put_ne _ _ hne]; exact h5 hd⟩
        | flushing =>
          simp only [hst] at h3 ⊢
          obtain ⟨sn, d, h4, h5, h6⟩ := h3
          cases d with
          | true =>
            exact ⟨sn, true, (hmem _).2 (Or.inr ⟨_, h4, e, rfl⟩), h5, fun _ v hv => hv.elim (h6 rfl v) fun hx => absurd hx.1 hne⟩
          | false =>
            exact ⟨_, false, (hmem _).2 (Or.inr ⟨_, h4, e, rfl⟩), fun v hv => hv.elim (h5 v) fun hx => absurd hx.1 hne, by simp⟩
  · intro e he
    rcases (hmem _).1 he with rfl | ⟨e', h1, h2, rfl⟩
    · exact ⟨u, hu, by simp, by simp⟩
    · rw [ext_fst]; exact h.own e' h1
  · simp only [List.map_map]
    have : (Prod.fst ∘ ext u.sector (img s k)) = Prod.fst := by funext e; exact ext_fst _ _ e
    rw [this, set_fst hi]
    exact h.uq

theorem Inv.of_exec_flush {E : Env} {s : St} (h : Inv E s [] []) {i k : Nat} {snap : Nat → Bytes → Prop}
    (hi : s.kern[i]? = some (k, .flush snap false)) : Inv E (exec s i) [] [] := by
  have hin := List.mem_of_getElem? hi
  rw [exec_flush hi]
  refine { len := h.len, tl := h.tl, hdr := fun k hk => (h.hdr k hk).of_told rfl, sv := fun x v hv => (h.sv x v hv.1).of_told rfl,
           dk := fun x => ⟨h.dk x, h.sn k snap hin x⟩, sn := ?_, q := h.q, upd := ?_, own := ?_, uq := ?_,
           uniq := h.uniq, fnd := h.fnd, bufx := h.bufx, pd := h.pd, pu := h.pu, pf := h.pf, fd := h.fd, fu := h.fu }
  · intro k' sn hm x
    rcases (mem_set h.uq hi _).1 hm with hm | ⟨hm, _⟩
    · cases hm
    · exact h.sn k' sn hm x
  · intro k' u' h1
    have h2 := h.upd k' u' h1
    refine ⟨h2.kn, h2.sector, h2.header, h2.mask, h2.ask, h2.untold, h2.busy, h2.wr, h2.fl, fun hx => by simp at hx, fun _ _ => ?_⟩
    have h3 := h2.kern (by simp) (by simp)
    unfold KernOk at h3 ⊢
    by_cases e : k' = k
    · subst e
      cases hst : u'.stage with
      | writing =>
        simp only [hst] at h3
        obtain ⟨d, h4, h5⟩ := h3
        cases fst_inj h.uq hin h4 rfl
      | flushing =>
        simp only [hst] at h3 ⊢
        obtain ⟨sn, d, h4, h5, h6⟩ := h3
        cases fst_inj h.uq hin h4 rfl
        exact ⟨snap, true, (mem_set h.uq hi _).2 (Or.inl rfl), h5, fun _ v hv => h5 v hv.2⟩
    · cases hst : u'.stage with
      | writing =>
        simp only [hst] at h3 ⊢
        obtain ⟨d, h4, h5⟩ := h3
        exact ⟨d, (mem_set h.uq hi _).2 (Or.inr ⟨h4, e⟩), h5⟩
      | flushing =>
        simp only [hst] at h3 ⊢
        obtain ⟨sn, d, h4, h5, h6⟩ := h3
        exact ⟨sn, d, (mem_set h.uq hi _).2 (Or.inr ⟨h4, e⟩), h5, fun hd v hv => h6 hd v hv.1⟩
  · intro e he
    rcases (mem_set h.uq hi _).1 he with rfl | ⟨h1, _⟩
    · exact h.own (k, .flush snap false) hin
    · exact h.own e h1
  · rw [set_fst hi]; exact h.uq

theorem Inv.of_exec {E : Env} {s : St} (h : Inv E s [] []) (i : Nat) : Inv E (exec s i) [] [] := by
  cases hi : s.kern[i]? with
  | none =>
    have : exec s i = s := by unfold exec; rw [hi]
    rw [this]; exact h
  | some e =>
    obtain ⟨k, op⟩ := e
    cases op with
    | write x b d =>
      cases d with
      | false => exact h.of_exec_write hi
      | true =>
        have : exec s i = s := by unfold exec; rw [hi]
        rw [this]; exact h
    | flush sn d =>
      cases d with
      | false => exact h.of_exec_flush hi
      | true =>
        have : exec s i = s := by unfold exec; rw [hi]
        rw [this]; exact h

/-! ## Runs -/

open Verif.Spec.MetaRing in
theorem Inv.init {hdrs : Bytes} {disk : Nat → Bytes} (hh : Holds hdrs disk) (A : UInt8 → Nat → Prop) :
    Inv ⟨hdrs, disk, A⟩ (St.init hdrs disk) [] [] := by
  have hok : ∀ k, HdrOk ⟨hdrs, disk, A⟩ (St.init hdrs disk) k (hdrs.getD k 0) :=
    fun k => ⟨fun _ _ _ hx => by simp [St.init] at hx, fun _ _ hx => hx, fun _ _ hx => Or.inl hx⟩
  refine { len := rfl, tl := fun _ _ hx => by simp [St.init] at hx, hdr := fun k _ => hok k, sv := fun x v hv => ?_, dk := fun x => rfl, sn := fun _ _ hx => by simp [St.init] at hx,
           q := fun _ _ hx => by simp [St.init] at hx, upd := fun _ _ hx => by simp [St.init] at hx, own := fun _ hx => by simp [St.init] at hx,
           uq := by simp [St.init], uniq := fun _ _ _ _ hx => by simp [St.init] at hx, fnd := List.nodup_range,
           bufx := fun _ _ _ _ hx => by simp [St.init] at hx, pd := List.nodup_nil, pu := fun _ hx => by simp at hx,
           pf := fun _ hx => by simp at hx, fd := List.nodup_nil, fu := fun _ hx => by simp at hx }
  have hv' : v = disk x := hv
  subst hv'
  have hx : ∀ k, stripeIdToSector k = home k := fun k => by show k / 508 + 1 = 1 + k / 508; omega
  refine ⟨fun k hk e => ?_, fun k hk e => ?_, fun _ => rfl⟩
  · rw [← e, hx]; exact (hh k hk).1
  · rw [← e, hx, (hh k hk).2]; exact hok k

open Verif.Spec.MetaRing in
theorem Inv.run {hdrs : Bytes} {disk : Nat → Bytes} (hh : Holds hdrs disk) {as : List Act} {s : St}
    (h : Run NoLeftover (St.init hdrs disk) as s) : Inv ⟨hdrs, disk, fun f k => asked as k f⟩ s [] [] := by
  induction h with
  | nil => exact Inv.init hh _
  | @snoc s' s'' as a hr hp hst ih =>
    have h1 := ih
    have hA : ∀ f k, asked as k f → asked (as ++ [a]) k f := fun f k h => by
      rcases h with ⟨h1, h2⟩ | ⟨h1, h2⟩
      · exact Or.inl ⟨h1, by simp [h2]⟩
      · exact Or.inr ⟨h1, by simp [h2]⟩
    have h2 := h1.mono hA
    cases hst with
    | setFetched k hk =>
      refine h1.ask hA fun k' m hm => ?_
      rcases List.mem_append.1 hm with hm | hm
      · exact h2.q k' m hm
      · simp only [List.mem_singleton, Prod.mk.injEq] at hm
        obtain ⟨rfl, rfl⟩ := hm
        rw [h1.len] at hk
        exact ⟨hk, Or.inl rfl, Or.inl ⟨rfl, by simp⟩⟩
    | setWritten k hk =>
      refine h1.ask hA fun k' m hm => ?_
      rcases List.mem_append.1 hm with hm | hm
      · exact h2.q k' m hm
      · simp only [List.mem_singleton, Prod.mk.injEq] at hm
        obtain ⟨rfl, rfl⟩ := hm
        rw [h1.len] at hk
        exact ⟨hk, Or.inr rfl, Or.inr ⟨rfl, by simp⟩⟩
    | start ok => exact h2.of_startWrites ok hp
    | poll cs ok l ht => exact h2.of_poll ht ok hp
    | exec i => exact h2.of_exec i

/-! ## No request is forgotten -/

/-- The flag is recorded, or an update to it is under way. -/
def Done (E : Env) (s : St) (k : Nat) (f : UInt8) : Prop :=
  flag (E.hdrs0.getD k 0) f = true ∨ (∃ h, (k, h) ∈ s.told ∧ flag h f = true) ∨ ∃ u, s.updates k = some u ∧ u.mask = f

/-- Nothing is forgotten: flags set in memory are recorded or under way, requests (`A`) are queued, recorded, under way or
have failed (`F`). -/
structure Req (E : Env) (F : Nat → Prop) (s : St) (q : List (Nat × UInt8)) : Prop where
  len : s.hdrs.length = E.hdrs0.length
  hd : ∀ k f, k < E.hdrs0.length → (f = FETCHED ∨ f = WRITTEN) → flag (s.hdrs.getD k 0) f = true → Done E s k f
  set : ∀ k u, s.updates k = some u → k < E.hdrs0.length ∧ (u.mask = FETCHED ∨ u.mask = WRITTEN) ∧ flag u.header u.mask = true
  req : ∀ k f, E.A f k → (k, f) ∈ q ∨ Done E s k f ∨ F k

theorem isF {f : UInt8} (h : f = FETCHED ∨ f = WRITTEN) : IsF f := h.elim Or.inl fun h => Or.inr (Or.inl h)

theorem Req.start {E : Env} {F : Nat → Prop} (q : List (Nat × UInt8)) : ∀ {s : St}, Req E F s q →
    (∀ k m, (k, m) ∈ q → k < E.hdrs0.length ∧ (m = FETCHED ∨ m = WRITTEN)) →
    (∀ k u, s.updates k = some u → s.busy (stripeIdToSector k) = true) →
    Req E F (startLoop q s).1 (startLoop q s).1.queue := by
  induction q with
  | nil => intro s h _ _; exact ⟨h.len, h.hd, h.set, h.req⟩
  | cons km q ih =>
    obtain ⟨k, m⟩ := km
    intro s h hq hb
    unfold startLoop
    have hset : Req E F { s with queue := (k, m) :: q } ((k, m) :: q) := ⟨h.len, h.hd, h.set, h.req⟩
    cases hf : s.free with
    | nil => rw [hf] at hset; exact hset
    | cons b rest =>
      simp only
      obtain ⟨hk, hm⟩ := hq k m (by simp)
      cases hbu : s.busy (stripeIdToSector k) with
      | true => rw [hf] at hset; exact hset
      | false =>
        have hnone : s.updates k = none := by
          cases hu : s.updates k with
          | none => rfl
          | some u => rw [hb k u hu] at hbu; cases hbu
        simp only [Bool.false_eq_true, if_false]
        cases hfl : flag (s.hdrs.getD k 0) m with
        | true =>
          simp only [if_true]
          refine ih ⟨h.len, h.hd, h.set, fun k' f hA => ?_⟩ (fun k m hx => hq k m (List.mem_cons_of_mem _ hx)) hb
          rcases h.req k' f hA with h1 | h1
          · rcases List.mem_cons.1 h1 with h1 | h1
            · cases h1; exact Or.inr (Or.inl (h.hd k m hk hm hfl))
            · exact Or.inl h1
          · exact Or.inr h1
        | false =>
          simp only [Bool.false_eq_true, if_false]
          have hk' : k < s.hdrs.length := by rw [h.len]; exact hk
          have hmono : ∀ k' f, Done E s k' f → Done E (begin1 s k m b rest) k' f := fun k' f hd => by
            rcases hd with hd | hd | ⟨u, hu, hd⟩
            · exact Or.inl hd
            · exact Or.inr (Or.inl hd)
            · have hne : k' ≠ k := fun e => by rw [e, hnone] at hu; cases hu
              exact Or.inr (Or.inr ⟨u, by simp only [begin1, put_ne _ _ hne]; exact hu, hd⟩)
          have hnew : Done E (begin1 s k m b rest) k m := Or.inr (Or.inr ⟨_, put_self _ _ _, rfl⟩)
          refine ih ⟨?_, fun k' f hk2 hf2 h1 => ?_, fun k' u hu => ?_, fun k' f hA => ?_⟩ (fun k m hx => hq k m (List.mem_cons_of_mem _ hx))
            (fun k' u hu => ?_)
          · simp [begin1, h.len]
          · have e : (begin1 s k m b rest).hdrs.getD k' 0 = if k' = k then s.hdrs.getD k 0 ||| m else s.hdrs.getD k' 0 := getD_set _ _ _ _ hk'
            rw [e] at h1
            by_cases hkk : k' = k
            · subst hkk
              simp only [if_true] at h1
              rw [set_flag hm (isF hf2)] at h1
              simp only [Bool.or_eq_true, decide_eq_true_eq] at h1
              rcases h1 with h1 | h1
              · exact hmono _ _ (h.hd k' f hk2 hf2 h1)
              · subst h1; exact hnew
            · simp only [hkk, if_false] at h1
              exact hmono _ _ (h.hd k' f hk2 hf2 h1)
          · by_cases hkk : k' = k
            · subst hkk
              simp only [begin1, put_self, Option.some.injEq] at hu
              subst hu
              refine ⟨hk, hm, ?_⟩
              simp only
              rw [set_flag hm (isF hm)]; simp
            · simp only [begin1, put_ne _ _ hkk] at hu
              exact h.set k' u hu
          · rcases h.req k' f hA with h1 | h1 | h1
            · rcases List.mem_cons.1 h1 with h1 | h1
              · cases h1; exact Or.inr (Or.inl hnew)
              · exact Or.inl h1
            · exact Or.inr (Or.inl (hmono _ _ h1))
            · exact Or.inr (Or.inr h1)
          · by_cases hs : stripeIdToSector k' = stripeIdToSector k
            · simp only [begin1, hs, put_self]
            · have hkk : k' ≠ k := fun e => hs (by rw [e])
              simp only [begin1, put_ne _ _ hkk] at hu
              simp only [begin1, put_ne _ _ hs]
              exact hb k' u hu

/-- Giving up update `k` after a failure. -/
theorem Req.drop {E : Env} {F : Nat → Prop} {s s' : St} {q : List (Nat × UInt8)} (h : Req E F s q) {k : Nat} {u : Update} (hu : s.updates k = some u)
    (eh : s'.hdrs = s.hdrs.set k (s.hdrs.getD k 0 &&& ~~~u.mask)) (eu : s'.updates = put s.updates k none) (et : s'.told = s.told) (hF : F k) :
    Req E F s' q := by
  obtain ⟨hk, hm, _⟩ := h.set k u hu
  have hk' : k < s.hdrs.length := by rw [h.len]; exact hk
  have hmono : ∀ k' f, Done E s k' f → (k' = k ∧ f = u.mask) ∨ Done E s' k' f := fun k' f hd => by
    rcases hd with hd | hd | ⟨u', h1, hd⟩
    · exact Or.inr (Or.inl hd)
    · exact Or.inr (Or.inr (Or.inl (by rw [et]; exact hd)))
    · by_cases hkk : k' = k
      · subst hkk; rw [hu] at h1; cases h1; exact Or.inl ⟨rfl, hd.symm⟩
      · exact Or.inr (Or.inr (Or.inr ⟨u', by rw [eu, put_ne _ _ hkk]; exact h1, hd⟩))
  refine ⟨by rw [eh]; simp [h.len], fun k' f hk2 hf h1 => ?_, fun k' u' h1 => ?_, fun k' f hA => ?_⟩
  · have e : s'.hdrs.getD k' 0 = if k' = k then s.hdrs.getD k 0 &&& ~~~u.mask else s.hdrs.getD k' 0 := by rw [eh]; exact getD_set _ _ _ _ hk'
    rw [e] at h1
    by_cases hkk : k' = k
    · subst hkk
      simp only [if_true] at h1
      rw [clear_flag hm (isF hf)] at h1
      simp only [Bool.and_eq_true, Bool.not_eq_true', decide_eq_false_iff_not] at h1
      exact (hmono _ _ (h.hd k' f hk2 hf h1.1)).resolve_left fun hx => h1.2 hx.2
    · simp only [hkk, if_false] at h1
      exact (hmono _ _ (h.hd k' f hk2 hf h1)).resolve_left fun hx => hkk hx.1
  · by_cases hkk : k' = k
    · subst hkk; rw [eu, put_self] at h1; cases h1
    · rw [eu, put_ne _ _ hkk] at h1; exact h.set k' u' h1
  · rcases h.req k' f hA with h1 | h1 | h1
    · exact Or.inl h1
    · rcases hmono _ _ h1 with ⟨rfl, _⟩ | h1
      · exact Or.inr (Or.inr hF)
      · exact Or.inr (Or.inl h1)
    · exact Or.inr (Or.inr h1)

theorem Req.cleanup {E : Env} {F : Nat → Prop} {q : List (Nat × UInt8)} {rb : Bool} (ks : List Nat) : ∀ {s : St}, Req E F s q → (∀ k, F k) →
    Req E F (cleanup s ks rb) q := by
  induction ks with
  | nil => intro s h _; exact h
  | cons k ks ih =>
    intro s h hF
    refine ih (s := cleanup1 s k rb) ?_ hF
    unfold cleanup1
    cases hu : s.updates k with
    | none => exact h
    | some u => exact h.drop hu rfl rfl rfl (hF k)

theorem Req.poll1 {E : Env} {F : Nat → Prop} {q : List (Nat × UInt8)} {p : Poll} (h : Req E F p.s q) (k : Nat) (ok : Bool) (hF : ok = false → F k) :
    Req E F (MetaRing.poll1 p k ok).s q := by
  unfold MetaRing.poll1
  cases hu : p.s.updates k with
  | none => exact h
  | some u =>
    simp only
    cases ok with
    | false => exact h.drop hu rfl rfl rfl (hF rfl)
    | true =>
      simp only [if_true]
      cases hs : u.stage with
      | flushing => exact ⟨h.len, h.hd, h.set, h.req⟩
      | writing =>
        have hmono : ∀ k' f, Done E p.s k' f → Done E { p.s with
            free := p.s.free ++ [u.buf]
            ring := p.s.ring ++ [(k, .flush)]
            updates := put p.s.updates k (some { u with stage := .flushing }) } k' f := fun k' f hd => by
          rcases hd with hd | hd | ⟨u', h1, hd⟩
          · exact Or.inl hd
          · exact Or.inr (Or.inl hd)
          · by_cases hkk : k' = k
            · subst hkk
              rw [hu] at h1; cases h1
              exact Or.inr (Or.inr ⟨_, put_self _ _ _, hd⟩)
            · exact Or.inr (Or.inr ⟨u', by simp only [put_ne _ _ hkk]; exact h1, hd⟩)
        refine ⟨h.len, fun k' f hk hf h1 => hmono _ _ (h.hd k' f hk hf h1), fun k' u' h1 => ?_, fun k' f hA => ?_⟩
        · by_cases hkk : k' = k
          · subst hkk
            simp only [put_self, Option.some.injEq] at h1
            subst h1
            exact h.set k' u hu
          · simp only [put_ne _ _ hkk] at h1
            exact h.set k' u' h1
        · exact (h.req k' f hA).imp id fun h1 => h1.imp (hmono _ _) id

theorem Req.tell {E : Env} {F : Nat → Prop} {q : List (Nat × UInt8)} (fin : List (Nat × UInt8)) : ∀ {s : St}, Req E F s q →
    (fin.map Prod.fst).Nodup → (∀ k h, (k, h) ∈ fin → ∀ u, s.updates k = some u → u.header = h) → Req E F (tell s fin) q := by
  induction fin with
  | nil => intro s h _ _; exact h
  | cons kh fin ih =>
    obtain ⟨k, hd⟩ := kh
    intro s h hn he
    have hnd := List.nodup_cons.1 hn
    have hmono : ∀ k' f, Done E s k' f → Done E { s with updates := put s.updates k none, told := (k, hd) :: s.told } k' f := fun k' f hdn => by
      rcases hdn with hdn | ⟨h1, h2, h3⟩ | ⟨u, h1, h2⟩
      · exact Or.inl hdn
      · exact Or.inr (Or.inl ⟨h1, by simp [h2], h3⟩)
      · by_cases hkk : k' = k
        · subst hkk
          refine Or.inr (Or.inl ⟨hd, by simp, ?_⟩)
          rw [← he k' hd (by simp) u h1, ← h2]
          exact (h.set k' u h1).2.2
        · exact Or.inr (Or.inr ⟨u, by simp only [put_ne _ _ hkk]; exact h1, h2⟩)
    refine ih ⟨h.len, fun k' f hk hf h1 => hmono _ _ (h.hd k' f hk hf h1), fun k' u h1 => ?_, fun k' f hA => ?_⟩ hnd.2 fun k' h' hm u hu => ?_
    · by_cases hkk : k' = k
      · subst hkk; simp only [put_self] at h1; cases h1
      · simp only [put_ne _ _ hkk] at h1; exact h.set k' u h1
    · exact (h.req k' f hA).imp id fun h1 => h1.imp (hmono _ _) id
    · have hne : k' ≠ k := fun e => hnd.1 (by rw [← e]; exact List.mem_map.2 ⟨_, hm, rfl⟩)
      simp only [put_ne _ _ hne] at hu
      exact he k' h' (List.mem_cons_of_mem _ hm) u hu

theorem Req.loop {E : Env} {F : Nat → Prop} {q : List (Nat × UInt8)} (cs : List (Nat × Bool)) : ∀ {p : Poll}, Req E F p.s q →
    (∀ k, (k, false) ∈ cs → F k) → Req E F (cs.foldl (fun p c => MetaRing.poll1 p c.1 c.2) p).s q := by
  induction cs with
  | nil => intro p h _; exact h
  | cons c cs ih =>
    obtain ⟨k, ok⟩ := c
    intro p h hF
    exact ih (h.poll1 k ok fun e => hF k (by simp [e])) fun k' hk' => hF k' (List.mem_cons_of_mem _ hk')

theorem poll1_queue (p : Poll) (k : Nat) (ok : Bool) : (poll1 p k ok).s.queue = p.s.queue := by
  unfold poll1
  cases p.s.updates k with
  | none => rfl
  | some u =>
    simp only
    cases ok with
    | false => rfl
    | true =>
      simp only [if_true]
      cases u.stage <;> rfl

theorem loop_queue (cs : List (Nat × Bool)) : ∀ p : Poll, (cs.foldl (fun p c => poll1 p c.1 c.2) p).s.queue = p.s.queue := by
  induction cs with
  | nil => intro p; rfl
  | cons c cs ih => intro p; simp only [List.foldl_cons]; rw [ih, poll1_queue]

theorem tell_queue (fin : List (Nat × UInt8)) : ∀ s : St, (tell s fin).queue = s.queue := by
  induction fin with
  | nil => intro s; rfl
  | cons kh fin ih => intro s; exact ih _

theorem cleanup1_queue (s : St) (k : Nat) (rb : Bool) : (cleanup1 s k rb).queue = s.queue := by
  unfold cleanup1
  cases s.updates k <;> rfl

theorem cleanup_queue (rb : Bool) (ks : List Nat) : ∀ s : St, (cleanup s ks rb).queue = s.queue := by
  induction ks with
  | nil => intro s; rfl
  | cons k ks ih => intro s; exact (ih _).trans (cleanup1_queue s k rb)

theorem exec_same (s : St) (i : Nat) : (exec s i).hdrs = s.hdrs ∧ (exec s i).updates = s.updates ∧ (exec s i).told = s.told ∧ (exec s i).queue = s.queue := by
  unfold exec
  split <;> exact ⟨rfl, rfl, rfl, rfl⟩

theorem Run.append {P : St → Act → Prop} {s s' s'' : St} {as bs : List Act} (h : Run P s as s') (h' : Run P s' bs s'') : Run P s (as ++ bs) s'' := by
  induction h' with
  | nil => rw [List.append_nil]; exact h
  | snoc _ hp hs ih => rw [← List.append_assoc]; exact ih.snoc hp hs

open Verif.Spec.MetaRing in
theorem Req.run {hdrs : Bytes} {disk : Nat → Bytes} (hh : Holds hdrs disk) {as0 as : List Act} {s0 s : St} {A : UInt8 → Nat → Prop}
    (h0 : Run NoLeftover (St.init hdrs disk) as0 s0) (hb : Req ⟨hdrs, disk, A⟩ (failed []) s0 s0.queue) (h : Run NoLeftover s0 as s) :
    Req ⟨hdrs, disk, A⟩ (failed as) s s.queue := by
  induction h with
  | nil => exact hb
  | @snoc s' s'' as a hr hp hst ih =>
    have hi := Inv.run hh (h0.append hr)
    have hFm : ∀ k, failed as k → failed (as ++ [a]) k := fun k hx => by
      rcases hx with ⟨cs, ok, h1, h2⟩ | h1
      · exact Or.inl ⟨cs, ok, by simp [h1], h2⟩
      · exact Or.inr (by simp [h1])
    have h1 : Req ⟨hdrs, disk, A⟩ (failed (as ++ [a])) s' s'.queue :=
      ⟨ih.len, ih.hd, ih.set, fun k f hA => (ih.req k f hA).imp id fun h2 => h2.imp id (hFm k)⟩
    cases hst with
    | setFetched k hk => exact ⟨h1.len, h1.hd, h1.set, fun k' f hA => (h1.req k' f hA).imp (List.mem_append_left _) id⟩
    | setWritten k hk => exact ⟨h1.len, h1.hd, h1.set, fun k' f hA => (h1.req k' f hA).imp (List.mem_append_left _) id⟩
    | exec i =>
      obtain ⟨e1, e2, e3, e4⟩ := exec_same s' i
      rw [e4]
      have hd : ∀ k f, Done ⟨hdrs, disk, A⟩ s' k f →
          Done ⟨hdrs, disk, A⟩ (exec s' i) k f := fun k f hx => by
        unfold Done at hx ⊢
        rw [e2, e3]; exact hx
      exact ⟨by rw [e1]; exact h1.len, fun k f hk hf hx => hd _ _ (h1.hd k f hk hf (by rw [e1] at hx; exact hx)),
        fun k u hu => h1.set k u (by rw [e2] at hu; exact hu), fun k f hA => (h1.req k f hA).imp id fun hx => hx.imp (hd _ _) id⟩
    | start ok =>
      have h2 := Req.start s'.queue h1 (fun k m hx => ⟨(hi.q k m hx).1, (hi.q k m hx).2.1⟩)
        (fun k u hu => by rw [← (hi.upd k u hu).sector]; exact (hi.upd k u hu).busy (by simp))
      unfold startWrites
      simp only
      by_cases he : (startLoop s'.queue s').2 = []
      · simp only [he, if_true]; exact h2
      · simp only [he, if_false]
        cases ok with
        | true => simp only [if_true]; exact ⟨h2.len, h2.hd, h2.set, h2.req⟩
        | false =>
          simp only [Bool.false_eq_true, if_false]
          rw [cleanup_queue]
          exact h2.cleanup _ fun k => Or.inr (by simp)
    | poll cs ok l ht =>
      have h0 : PollInv ⟨hdrs, disk, fun f k => asked (as0 ++ as) k f⟩ s'.ring ⟨{ s' with kern := l }, [], []⟩ s'.kern :=
        ⟨hi, fun _ _ hx => by simp at hx, ⟨[], by simp, rfl, fun _ hx => by simp at hx⟩, fun _ hx => by simp at hx⟩
      have h3 := PollInv.loop ht h0
      have h4 := Req.loop cs (p := ⟨{ s' with kern := l }, [], []⟩) (q := s'.queue) ⟨h1.len, h1.hd, h1.set, h1.req⟩
        fun k hk => Or.inl ⟨cs, ok, by simp, Or.inl hk⟩
      have hq := loop_queue cs ⟨{ s' with kern := l }, [], []⟩
      unfold pollChannel
      simp only
      revert h3 h4 hq
      generalize cs.foldl (fun p c => MetaRing.poll1 p c.1 c.2) ⟨{ s' with kern := l }, [], []⟩ = p
      intro h3 h4 hq
      simp only at hq
      have h5 := h4.tell p.finished h3.inv.fd h3.fin
      by_cases hf : p.flushing = []
      · simp only [hf, if_true]
        rw [tell_queue, hq]; exact h5
      · simp only [hf, if_false]
        cases ok with
        | true =>
          simp only [if_true]
          have e : (submit (MetaRing.tell p.s p.finished)).queue = s'.queue := (tell_queue _ _).trans hq
          rw [e]
          exact ⟨h5.len, h5.hd, h5.set, h5.req⟩
        | false =>
          simp only [Bool.false_eq_true, if_false]
          rw [cleanup_queue, tell_queue, hq]
          exact h5.cleanup _ fun k => Or.inl ⟨cs, false, by simp, Or.inr rfl⟩

end Verif.MetaRing
