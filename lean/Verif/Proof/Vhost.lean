import Verif.Spec.Vhost

set_option maxRecDepth 8000

namespace Verif.Vhost
open Verif Verif.Metadata Verif.Disk

theorem span_length (a n : Nat) : (span a n).length = n := by simp [span]

theorem mem_span {a n x : Nat} : x ∈ span a n ↔ a ≤ x ∧ x < a + n := by
  simp only [span, List.mem_map, List.mem_range]
  constructor
  · rintro ⟨k, hk, rfl⟩; omega
  · rintro ⟨h1, h2⟩; exact ⟨x - a, by omega, by omega⟩

theorem span_succ (a n : Nat) : span a (n + 1) = a :: span (a + 1) n := by
  simp only [span, List.range_succ_eq_map, List.map_cons, List.map_map, Nat.add_zero, List.cons.injEq, true_and]
  apply List.map_congr_left
  intro k _
  simp only [Function.comp]; omega

theorem span_getElem? (a n i : Nat) (h : i < n) : (span a n)[i]? = some (a + i) := by
  simp [span, h]

theorem span_nodup (a n : Nat) : (span a n).Nodup := by
  induction n generalizing a with
  | zero => simp [span]
  | succ n ih =>
    rw [span_succ, List.nodup_cons]
    exact ⟨by rw [mem_span]; omega, ih _⟩

theorem places_nil : places [] = [] := rfl
theorem places_cons (a l : Nat) (ds : List (Nat × Nat)) : places ((a, l) :: ds) = span a l ++ places ds := by simp [places]
theorem total_cons (a l : Nat) (ds : List (Nat × Nat)) : total ((a, l) :: ds) = l + total ds := by simp [total]

theorem places_length (ds : List (Nat × Nat)) : (places ds).length = total ds := by
  induction ds with
  | nil => rfl
  | cons d ds ih => obtain ⟨a, l⟩ := d; rw [places_cons, total_cons, List.length_append, span_length, ih]

theorem read_some {m : GMem} {a n : Nat} {bs : Bytes} :
    m.read a n = some bs ↔ (∀ x ∈ span a n, m.ok x = true) ∧ bs = (span a n).map m.bytes := by
  unfold GMem.read
  by_cases h : (span a n).all m.ok = true
  · rw [if_pos h]
    rw [List.all_eq_true] at h
    constructor
    · intro e; exact ⟨h, (Option.some.inj e).symm⟩
    · rintro ⟨_, rfl⟩; rfl
  · rw [if_neg h]
    rw [List.all_eq_true] at h
    constructor
    · intro e; cases e
    · rintro ⟨h', _⟩; exact absurd h' h

theorem read_none {m : GMem} {a n : Nat} : m.read a n = none ↔ ¬∀ x ∈ span a n, m.ok x = true := by
  unfold GMem.read
  by_cases h : (span a n).all m.ok = true
  · rw [if_pos h]; rw [List.all_eq_true] at h
    exact ⟨fun e => (nomatch e), fun e => absurd h e⟩
  · rw [if_neg h]; rw [List.all_eq_true] at h; simp only [true_iff]; exact h

theorem write_ok (m : GMem) (a : Nat) (bs : Bytes) : (m.write a bs).1.ok = m.ok := by
  induction bs generalizing m a with
  | nil => rfl
  | cons b bs ih =>
    unfold GMem.write
    split
    · rw [ih]
    · rfl

theorem write_done (m : GMem) (a : Nat) (bs : Bytes) :
    (m.write a bs).2 = true ↔ ∀ x ∈ span a bs.length, m.ok x = true := by
  induction bs generalizing m a with
  | nil => simp [GMem.write, span]
  | cons b bs ih =>
    unfold GMem.write
    rw [List.length_cons, span_succ]
    by_cases h : m.ok a = true
    · rw [if_pos h, ih]; simp [h]
    · rw [if_neg h]; simp [h]

theorem write_outside (m : GMem) (a : Nat) (bs : Bytes) (x : Nat) (h : x ∉ span a bs.length) :
    (m.write a bs).1.bytes x = m.bytes x := by
  induction bs generalizing m a with
  | nil => rfl
  | cons b bs ih =>
    rw [List.length_cons, span_succ, List.mem_cons, not_or] at h
    unfold GMem.write
    split
    · rw [ih _ _ h.2]; exact upd_ne _ _ h.1
    · rfl

theorem write_inside (m : GMem) (a : Nat) (bs : Bytes) (h : (m.write a bs).2 = true) (i : Nat) (hi : i < bs.length) :
    (m.write a bs).1.bytes (a + i) = bs.getD i 0 := by
  induction bs generalizing m a i with
  | nil => simp at hi
  | cons b bs ih =>
    unfold GMem.write at h ⊢
    by_cases hok : m.ok a = true
    · rw [if_pos hok] at h ⊢
      cases i with
      | zero =>
        rw [Nat.add_zero, write_outside _ _ _ _ (by rw [mem_span]; omega)]
        simp
      | succ i =>
        have := ih _ (a + 1) h i (by simpa using hi)
        rw [show a + (i + 1) = a + 1 + i by omega, this]; simp
    · rw [if_neg hok] at h; cases h

/-! ## Gathering -/

theorem gather_ok {m : GMem} {ds : List (Nat × Nat)} {pos : Nat} {buf buf' : Bytes} {f f' : Bool}
    (h : gather m ds pos buf f = .ok (buf', f')) (hp : pos ≤ buf.length) :
    pos + total ds ≤ buf.length ∧ buf'.length = buf.length ∧
    (f' = false ↔ f = false ∧ ∀ a ∈ places ds, m.ok a = true) ∧
    (f' = false → buf' = buf.take pos ++ (places ds).map m.bytes ++ buf.drop (pos + total ds)) := by
  induction ds generalizing pos buf f with
  | nil =>
    simp only [gather, Res.ok.injEq, Prod.mk.injEq] at h
    obtain ⟨rfl, rfl⟩ := h
    simp [total, places, hp]
  | cons d ds ih =>
    obtain ⟨a, l⟩ := d
    simp only [gather] at h
    by_cases hl : pos + l > buf.length
    · rw [if_pos hl] at h; cases h
    rw [if_neg hl] at h
    cases hr : m.read a l with
    | some bs =>
      rw [hr] at h
      obtain ⟨hall, rfl⟩ := read_some.mp hr
      have hlen : (buf.take pos ++ (span a l).map m.bytes ++ buf.drop (pos + l)).length = buf.length := by
        simp only [List.length_append, List.length_take, List.length_map, span_length, List.length_drop]; omega
      obtain ⟨h1, h2, h3, h4⟩ := ih h (by rw [hlen]; omega)
      rw [hlen] at h1 h2
      refine ⟨by rw [total_cons]; omega, h2, ?_, ?_⟩
      · rw [h3, places_cons]; simp only [List.mem_append]
        constructor
        · rintro ⟨e, h⟩; exact ⟨e, fun x hx => hx.elim (hall x) (h x)⟩
        · rintro ⟨e, h⟩; exact ⟨e, fun x hx => h x (Or.inr hx)⟩
      · intro e
        rw [h4 e, places_cons, total_cons]
        have hA : (buf.take pos ++ (span a l).map m.bytes).length = pos + l := by
          simp only [List.length_append, List.length_take, List.length_map, span_length]; omega
        rw [List.take_append_of_le_length (by omega), List.take_of_length_le (by omega),
          ← List.drop_drop, List.drop_left' hA, List.drop_drop, List.map_append, ← Nat.add_assoc]
        simp only [List.append_assoc]
    | none =>
      rw [hr] at h
      have hno := read_none.mp hr
      obtain ⟨h1, h2, h3, _⟩ := ih h (by omega)
      have hf : f' = true := by
        cases f' with
        | true => rfl
        | false => have := (h3.mp rfl).1; cases this
      refine ⟨by rw [total_cons]; omega, h2, ?_, ?_⟩
      · rw [hf, places_cons]
        constructor
        · intro h; cases h
        · rintro ⟨_, h⟩; exact absurd (fun x hx => h x (List.mem_append_left _ hx)) hno
      · intro h; rw [hf] at h; cases h

theorem gather_total {m : GMem} {ds : List (Nat × Nat)} {pos : Nat} {buf : Bytes} {f : Bool} (h : pos + total ds ≤ buf.length) :
    gather m ds pos buf f ≠ .panic := by
  induction ds generalizing pos buf f with
  | nil => intro e; simp [gather] at e
  | cons d ds ih =>
    obtain ⟨a, l⟩ := d
    rw [total_cons] at h
    simp only [gather]
    rw [if_neg (by omega)]
    cases hr : m.read a l with
    | some bs =>
      obtain ⟨_, rfl⟩ := read_some.mp hr
      apply ih
      simp only [List.length_append, List.length_take, List.length_map, span_length, List.length_drop]; omega
    | none => apply ih; omega

/-! ## Scattering -/

theorem slice_getD {buf : Bytes} {pos l i : Nat} (hi : i < l) : (slice buf pos l).getD i 0 = buf.getD (pos + i) 0 := by
  simp [slice, List.getD_eq_getElem?_getD, List.getElem?_take, List.getElem?_drop, hi]

theorem scatter_ok {m m' : GMem} {ds : List (Nat × Nat)} {pos : Nat} {buf : Bytes} {b : Bool}
    (h : scatter m ds pos buf = .ok (m', b)) (hp : pos ≤ buf.length) :
    m'.ok = m.ok ∧ (∀ x, x ∉ places ds → m'.bytes x = m.bytes x) ∧
    (b = true ↔ ∀ a ∈ places ds, m.ok a = true) ∧
    (b = true → pos + total ds ≤ buf.length ∧
      ((places ds).Nodup → ∀ i a, (places ds)[i]? = some a → m'.bytes a = buf.getD (pos + i) 0)) := by
  induction ds generalizing pos m with
  | nil =>
    simp only [scatter, Res.ok.injEq, Prod.mk.injEq] at h
    obtain ⟨rfl, rfl⟩ := h
    simp [total, places, hp]
  | cons d ds ih =>
    obtain ⟨a, l⟩ := d
    simp only [scatter] at h
    by_cases hl : pos + l > buf.length
    · rw [if_pos hl] at h; cases h
    rw [if_neg hl] at h
    have hsl : (slice buf pos l).length = l := slice_length _ _ _ (by omega)
    have hwd := write_done m a (slice buf pos l)
    rw [hsl] at hwd
    have hwo := write_ok m a (slice buf pos l)
    have hws := write_outside m a (slice buf pos l)
    rw [hsl] at hws
    by_cases hw : (m.write a (slice buf pos l)).2 = true
    · rw [if_pos hw] at h
      have hwi := write_inside m a _ hw
      rw [hsl] at hwi
      generalize hm : (m.write a (slice buf pos l)).1 = m1 at h hwo hws hwi
      obtain ⟨h1, h2, h3, h4⟩ := ih h (by omega)
      refine ⟨h1.trans hwo, ?_, ?_, ?_⟩
      · intro x hx
        rw [places_cons, List.mem_append, not_or] at hx
        rw [h2 x hx.2, hws x hx.1]
      · rw [h3, places_cons, hwo]
        constructor
        · intro h x hx
          rcases List.mem_append.mp hx with hx | hx
          · exact hwd.mp hw x hx
          · exact h x hx
        · intro h x hx; exact h x (List.mem_append_right _ hx)
      · intro hb
        obtain ⟨h5, h6⟩ := h4 hb
        refine ⟨by rw [total_cons]; omega, ?_⟩
        intro hnd i x hx
        rw [places_cons] at hnd hx
        obtain ⟨_, hnd2, hdis⟩ := List.nodup_append.mp hnd
        by_cases hi : i < l
        · rw [List.getElem?_append_left (by rw [span_length]; exact hi), span_getElem? _ _ _ hi] at hx
          obtain rfl := Option.some.inj hx
          rw [h2 (a + i), hwi i hi, slice_getD hi]
          intro hmem
          exact hdis (a + i) (mem_span.mpr (by omega)) (a + i) hmem rfl
        · rw [List.getElem?_append_right (by rw [span_length]; omega), span_length] at hx
          rw [h6 hnd2 _ _ hx, show pos + l + (i - l) = pos + i by omega]
    · rw [if_neg hw] at h
      simp only [Res.ok.injEq, Prod.mk.injEq] at h
      obtain ⟨rfl, rfl⟩ := h
      refine ⟨hwo, ?_, ?_, fun h => by cases h⟩
      · intro x hx
        rw [places_cons, List.mem_append, not_or] at hx
        exact hws x hx.1
      · constructor
        · intro h; cases h
        · intro h
          exact absurd (hwd.mpr fun x hx => h x (by rw [places_cons]; exact List.mem_append_left _ hx)) hw

theorem scatter_total {m : GMem} {ds : List (Nat × Nat)} {pos : Nat} {buf : Bytes} (h : pos + total ds ≤ buf.length) :
    scatter m ds pos buf ≠ .panic := by
  induction ds generalizing pos m with
  | nil => intro e; simp [scatter] at e
  | cons d ds ih =>
    obtain ⟨a, l⟩ := d
    rw [total_cons] at h
    simp only [scatter]
    rw [if_neg (by omega)]
    split
    · exact ih (by omega)
    · intro e; cases e

end Verif.Vhost

namespace Verif.Vhost
open Verif Verif.Metadata Verif.Disk

/-! ## Parsing -/

theorem parseData_ok (m : GMem) (r r' : Request) (ds : List Desc) :
    parseData m r ds = .ok r' ↔
      (r.ty = .in → ∀ d ∈ ds.takeWhile (·.next), d.write = true) ∧
      ∃ d, (ds.dropWhile (·.next)).head? = some d ∧ d.write = true ∧ 1 ≤ d.len ∧ m.ok d.addr = true ∧
        r' = { r with data := r.data ++ (ds.takeWhile (·.next)).map (fun d => (d.addr, d.len)), status := d.addr } := by
  induction ds generalizing r with
  | nil => simp [parseData]
  | cons d ds ih =>
    unfold parseData
    by_cases hn : d.next = true
    · rw [if_pos hn, List.takeWhile_cons_of_pos (by simpa using hn), List.dropWhile_cons_of_pos (by simpa using hn)]
      by_cases hc : (!d.write && decide (r.ty = .in)) = true
      · rw [if_pos hc]
        simp only [Bool.and_eq_true, Bool.not_eq_true', decide_eq_true_eq] at hc
        constructor
        · intro h; cases h
        · rintro ⟨h, _⟩
          have := h hc.2 d (List.mem_cons_self ..)
          rw [hc.1] at this; cases this
      · rw [if_neg hc, ih]
        simp only [Bool.and_eq_true, Bool.not_eq_true', decide_eq_true_eq, not_and] at hc
        constructor
        · rintro ⟨h1, e, h2, h3, h4, h5, h6⟩
          refine ⟨?_, e, h2, h3, h4, h5, ?_⟩
          · intro ht x hx
            rcases List.mem_cons.mp hx with rfl | hx
            · cases hw : x.write with
              | true => rfl
              | false => exact absurd ht (hc hw)
            · exact h1 ht x hx
          · rw [h6]; simp
        · rintro ⟨h1, e, h2, h3, h4, h5, h6⟩
          refine ⟨fun ht x hx => h1 ht x (List.mem_cons_of_mem _ hx), e, h2, h3, h4, h5, ?_⟩
          rw [h6]; simp
    · rw [if_neg hn, List.takeWhile_cons_of_neg (by simpa using hn), List.dropWhile_cons_of_neg (by simpa using hn)]
      simp only [List.head?_cons, Option.some.injEq]
      unfold checkStatus
      cases hw : d.write with
      | false =>
        simp only [Bool.not_false, if_true]
        constructor
        · intro h; cases h
        · rintro ⟨_, e, rfl, h, _⟩; rw [hw] at h; cases h
      | true =>
        simp only [Bool.not_true, Bool.false_eq_true, if_false]
        by_cases hl : d.len < 1
        · rw [if_pos hl]
          constructor
          · intro h; cases h
          · rintro ⟨_, e, rfl, _, h, _⟩; omega
        · rw [if_neg hl]
          cases hm : m.ok d.addr with
          | false =>
            simp only [Bool.not_false, if_true]
            constructor
            · intro h; cases h
            · rintro ⟨_, e, rfl, _, _, h, _⟩; rw [hm] at h; cases h
          | true =>
            simp only [Bool.not_true, Bool.false_eq_true, if_false, Except.ok.injEq]
            constructor
            · rintro rfl
              exact ⟨fun _ _ h => (nomatch h), d, rfl, hw, by omega, hm, by simp⟩
            · rintro ⟨_, e, rfl, _, _, _, h⟩
              rw [h]; simp

/-! ## Slots in use -/

/-- The slot with an index, if it is in use. -/
def held (v : Vq) (i : Nat) : Option Slot := (v.slots[i]?).filter (·.used)

/-- All buffers are shorter than 2^32 bytes. -/
def Small (v : Vq) : Prop := ∀ s ∈ v.slots, s.buf.length < 2 ^ 32

theorem held_some {v : Vq} {i : Nat} {s : Slot} : held v i = some s ↔ v.slots[i]? = some s ∧ s.used = true := by
  simp [held, Option.filter_eq_some_iff]

theorem held_modify (v : Vq) (i : Nat) (f : Slot → Slot) :
    held { v with slots := v.slots.modify i f } = upd (held v) i (((v.slots[i]?).map f).filter (·.used)) := by
  funext j
  by_cases h : j = i
  · subst h; rw [upd_same]; simp [held, List.getElem?_modify]
  · rw [upd_ne _ _ h]; simp [held, List.getElem?_modify, Ne.symm h]

theorem held_put (v : Vq) (i : Nat) : held (putSlot v i) = upd (held v) i none := by
  unfold putSlot
  rw [held_modify]
  congr 1
  cases v.slots[i]? <;> rfl

theorem small_modify {v : Vq} (h : Small v) (i : Nat) (f : Slot → Slot)
    (hf : ∀ s, v.slots[i]? = some s → (f s).buf.length < 2 ^ 32) : Small { v with slots := v.slots.modify i f } := by
  intro s hs
  obtain ⟨j, hj⟩ := List.mem_iff_getElem?.mp hs
  rw [List.getElem?_modify] at hj
  cases hv : v.slots[j]? with
  | none => rw [hv] at hj; simp at hj
  | some t =>
    rw [hv] at hj
    by_cases hij : i = j
    · subst hij
      simp only [if_true, Option.map_eq_map, Option.map_some, Option.some.injEq] at hj
      rw [← hj]; exact hf t hv
    · simp only [if_neg hij, Option.map_eq_map, Option.map_some, Option.some.injEq] at hj
      rw [← hj]; exact h t (List.mem_iff_getElem?.mpr ⟨j, hv⟩)

theorem small_put {v : Vq} (h : Small v) (i : Nat) : Small (putSlot v i) :=
  small_modify h i _ fun s hs => h s (List.mem_iff_getElem?.mpr ⟨i, hs⟩)

/-- The slot a request is given. -/
def newSlot (len : Nat) (r : Request) (c : Chain) (buf : Bytes) : Slot :=
  ⟨true, r.ty, r.sector, len, buf, r.status, c.uid, c.head, r.data⟩

theorem getSlot_spec {v v1 : Vq} {len id : Nat} {r : Request} {c : Chain} (h : getSlot v len r c = (v1, id)) (hs : Small v)
    (hl : len < 2 ^ 32) :
    ∃ buf : Bytes, held v id = none ∧ len ≤ buf.length ∧ buf.length < 2 ^ 32 ∧ v1.slots[id]? = some (newSlot len r c buf) ∧
      held v1 = upd (held v) id (some (newSlot len r c buf)) ∧ Small v1 ∧ v1 = { v with slots := v1.slots } := by
  unfold getSlot at h
  cases hf : findSlot v.slots len with
  | some i =>
    rw [hf] at h
    simp only [Prod.mk.injEq] at h
    obtain ⟨rfl, rfl⟩ := h
    unfold findSlot at hf
    obtain ⟨hi, hp, _⟩ := List.findIdx?_eq_some_iff_getElem.mp hf
    simp only [Bool.and_eq_true, decide_eq_true_eq, Bool.not_eq_true'] at hp
    have hget : v.slots[i]? = some v.slots[i] := List.getElem?_eq_getElem hi
    refine ⟨v.slots[i].buf, ?_, hp.1, hs _ (List.getElem_mem hi), ?_, ?_, ?_, rfl⟩
    · simp [held, hget, hp.2]
    · simp [List.getElem?_set, hi, newSlot]
    · funext j
      by_cases hj : j = i
      · subst hj; rw [upd_same]; simp [held, List.getElem?_set, hi, newSlot]
      · rw [upd_ne _ _ hj]; simp [held, List.getElem?_set, Ne.symm hj]
    · intro s hs'
      rcases List.mem_or_eq_of_mem_set hs' with h | h
      · exact hs s h
      · rw [h]; simp only [hget, Option.map_some, Option.getD_some]; exact hs _ (List.getElem_mem hi)
  | none =>
    rw [hf] at h
    simp only [Prod.mk.injEq] at h
    obtain ⟨rfl, rfl⟩ := h
    refine ⟨zeros len, ?_, by simp, by simpa using hl, ?_, ?_, ?_, rfl⟩
    · simp [held]
    · simp [newSlot]
    · funext j
      by_cases hj : j = v.slots.length
      · subst hj; rw [upd_same]; simp [held, newSlot]
      · rw [upd_ne _ _ hj]
        by_cases hlt : j < v.slots.length
        · simp [held, List.getElem?_append_left hlt]
        · simp only [held]
          rw [List.getElem?_eq_none (by simp; omega), List.getElem?_eq_none (by omega)]
    · intro s hs'
      rcases List.mem_append.mp hs' with h | h
      · exact hs s h
      · simp only [List.mem_singleton] at h; rw [h]; simpa using hl

/-! ## One step -/

theorem complete_spec (v : Vq) (uid head status : Nat) (st : UInt8) (h : v.mem.ok status = true) :
    complete v uid head status st =
      ({ v with mem := { v.mem with bytes := upd v.mem.bytes status st }, pendingSignal := true }, [.returned uid head (some st)]) := by
  simp [complete, GMem.write, h]

/-- What may be sent to the channel for a request that was parsed as `r` when memory was `m`. -/
def Issued (m : GMem) (r : Request) : DevReq → Prop
  | .read sec cnt => r.ty = .in ∧ sec = r.sector ∧ cnt * 512 = total r.data % 2 ^ 32
  | .write sec cnt d => r.ty = .out ∧ sec = r.sector ∧ cnt * 512 = total r.data ∧ d = (places r.data).map m.bytes ∧
      ∀ a ∈ places r.data, m.ok a = true
  | .flush => r.ty = .flush

/-- The slot belongs to the request. -/
structure For (r : Request) (c : Chain) (s : Slot) : Prop where
  uid : s.uid = c.uid
  head : s.head = c.head
  ty : s.ty = r.ty
  sector : s.sector = r.sector
  data : s.data = r.data
  status : s.status = r.status
  fits : s.reqLen ≤ s.buf.length
  len : s.ty ≠ .flush → s.reqLen = total r.data % 2 ^ 32

/-- The effect of processing a chain: returned at once, or held in a slot. -/
inductive Effect (m : GMem) (v v' : Vq) (c : Chain) : List VEv → Prop where
  | bad (h : held v' = held v) (hi : v'.inflight = v.inflight) (hb : v'.mem = v.mem) (hs : v'.pendingSignal = v.pendingSignal) :
      Effect m v v' c [.returned c.uid c.head none]
  | done (st : UInt8) (h : held v' = held v) (hi : v'.inflight = v.inflight) (hs : v'.pendingSignal = true) :
      Effect m v v' c [.returned c.uid c.head (some st)]
  | hold (r : Request) (id : Nat) (q : DevReq) (s : Slot) (hp : parse m c.descs = .ok r) (hn : held v id = none)
      (h : held v' = upd (held v) id (some s)) (hi : v'.inflight = upd v.inflight id (some q)) (hf : For r c s)
      (hq : Issued m r q) (hb : v'.mem = v.mem) (hs : v'.pendingSignal = v.pendingSignal) : Effect m v v' c [.dev id q]

theorem parse_status {m : GMem} {ds : List Desc} {r : Request} (h : parse m ds = .ok r) : m.ok r.status = true := by
  cases ds with
  | nil => cases h
  | cons d ds =>
    simp only [parse] at h
    split at h
    · cases h
    split at h
    · cases h
    split at h
    · cases h
    obtain ⟨_, d, _, _, _, h5, rfl⟩ := (parseData_ok _ _ _ _).mp h
    exact h5

theorem requestLen_eq (r : Request) : requestLen r = total r.data % 2 ^ 32 := rfl

theorem read_spec {v v' : Vq} {r : Request} {c : Chain} {es : List VEv} (h : processRead v r c = .ok (v', es)) (hs : Small v)
    (hp : parse v.mem c.descs = .ok r) (ht : r.ty = .in) :
    v'.popped = v.popped ∧ v'.mem.ok = v.mem.ok ∧ Small v' ∧ Effect v.mem v v' c es := by
  have hst := parse_status hp
  unfold processRead at h
  by_cases hl : requestLen r % 512 ≠ 0
  · simp only [if_pos hl, complete_spec _ _ _ _ _ hst, Res.ok.injEq, Prod.mk.injEq] at h
    obtain ⟨rfl, rfl⟩ := h
    exact ⟨rfl, rfl, hs, .done _ rfl rfl rfl⟩
  · simp only [if_neg hl] at h
    cases hg : getSlot v (requestLen r) r c with
    | mk v1 id =>
      simp only [hg, Res.ok.injEq, Prod.mk.injEq] at h
      obtain ⟨rfl, rfl⟩ := h
      obtain ⟨buf, h1, h2, h3, h4, h5, h6, h7⟩ := getSlot_spec hg hs (Nat.mod_lt _ (by decide))
      have e1 : v1.popped = v.popped := by rw [h7]
      have e2 : v1.mem = v.mem := by rw [h7]
      have e3 : v1.inflight = v.inflight := by rw [h7]
      have e4 : v1.pendingSignal = v.pendingSignal := by rw [h7]
      refine ⟨e1, by simp only [e2], h6, .hold r id _ (newSlot (requestLen r) r c buf) hp h1 h5 (by simp only [e3]) ?_ ?_ e2 e4⟩
      · exact ⟨rfl, rfl, rfl, rfl, rfl, rfl, h2, fun _ => rfl⟩
      · refine ⟨ht, rfl, ?_⟩
        rw [requestLen_eq] at hl ⊢; omega

theorem write_spec {v v' : Vq} {r : Request} {c : Chain} {es : List VEv} (h : processWrite v r c = .ok (v', es)) (hs : Small v)
    (hp : parse v.mem c.descs = .ok r) (ht : r.ty = .out) :
    v'.popped = v.popped ∧ v'.mem.ok = v.mem.ok ∧ Small v' ∧ Effect v.mem v v' c es := by
  have hst := parse_status hp
  unfold processWrite at h
  by_cases hl : requestLen r % 512 ≠ 0
  · simp only [if_pos hl, complete_spec _ _ _ _ _ hst, Res.ok.injEq, Prod.mk.injEq] at h
    obtain ⟨rfl, rfl⟩ := h
    exact ⟨rfl, rfl, hs, .done _ rfl rfl rfl⟩
  · simp only [if_neg hl] at h
    cases hg : getSlot v (requestLen r) r c with
    | mk v1 id =>
      simp only [hg] at h
      obtain ⟨buf, h1, h2, h3, h4, h5, h6, h7⟩ := getSlot_spec hg hs (Nat.mod_lt _ (by decide))
      have e1 : v1.popped = v.popped := by rw [h7]
      have e2 : v1.mem = v.mem := by rw [h7]
      have e3 : v1.inflight = v.inflight := by rw [h7]
      have e4 : v1.pendingSignal = v.pendingSignal := by rw [h7]
      have hbuf : ((v1.slots[id]?).map Slot.buf).getD [] = buf := by rw [h4]; rfl
      rw [hbuf, e2] at h
      cases hga : gather v.mem r.data 0 buf false with
      | panic => rw [hga] at h; cases h
      | ok p =>
        obtain ⟨buf', failed⟩ := p
        rw [hga] at h
        obtain ⟨g1, g2, g3, g4⟩ := gather_ok hga (Nat.zero_le _)
        rw [Nat.zero_add] at g1
        have hsm : Small { v1 with slots := v1.slots.modify id fun s => { s with buf := buf' } } :=
          small_modify h6 id _ fun s _ => by simp only [g2]; exact h3
        cases failed with
        | true =>
          simp only [if_true] at h
          rw [complete_spec _ _ _ _ _ (by simp only [e2]; exact hst)] at h
          simp only [Res.ok.injEq, Prod.mk.injEq] at h
          obtain ⟨rfl, rfl⟩ := h
          refine ⟨e1, by simp only [putSlot, e2], small_put (v := { v1 with slots := _, mem := _, pendingSignal := _ }) hsm _, .done _ ?_ (by simp only [putSlot, e3]) rfl⟩
          rw [held_put]
          have hh : held { v1 with slots := v1.slots.modify id fun s => { s with buf := buf' } }
              = upd (held v1) id _ := held_modify v1 id _
          funext j
          by_cases hj : j = id
          · subst hj; rw [upd_same, h1]
          · rw [upd_ne _ _ hj]
            have := congrFun hh j
            rw [upd_ne _ _ hj, h5, upd_ne _ _ hj] at this
            exact this
        | false =>
          simp only [Bool.false_eq_true, if_false, Res.ok.injEq, Prod.mk.injEq] at h
          obtain ⟨rfl, rfl⟩ := h
          have htot : requestLen r = total r.data := by rw [requestLen_eq]; exact Nat.mod_eq_of_lt (by omega)
          refine ⟨e1, by simp only [e2], hsm, .hold r id _ (newSlot (requestLen r) r c buf') hp h1 ?_ (by simp only [e3]) ?_ ?_ rfl e4⟩
          · have hh := held_modify v1 id fun s => { s with buf := buf' }
            refine Eq.trans hh ?_
            rw [h5, h4]
            funext j
            by_cases hj : j = id
            · subst hj; rw [upd_same, upd_same]; rfl
            · rw [upd_ne _ _ hj, upd_ne _ _ hj, upd_ne _ _ hj]
          · exact ⟨rfl, rfl, rfl, rfl, rfl, rfl, by simp only [newSlot, g2]; exact h2, fun _ => rfl⟩
          · have hcnt : requestLen r / 512 * 512 = total r.data := by rw [htot] at hl ⊢; omega
            refine ⟨ht, rfl, hcnt, ?_, (g3.mp rfl).2⟩
            rw [hcnt, g4 rfl, List.take_zero, List.nil_append]
            rw [List.take_append_of_le_length (by rw [List.length_map, places_length]; omega)]
            rw [List.take_of_length_le (by rw [List.length_map, places_length]; omega)]

theorem chain_spec {dev : Bytes} {v v' : Vq} {head : Nat} {descs : List Desc} {es : List VEv}
    (h : processChain dev v head descs = .ok (v', es)) (hs : Small v) :
    v'.popped = v.popped + 1 ∧ v'.mem.ok = v.mem.ok ∧ Small v' ∧ Effect v.mem v v' ⟨v.popped, head, descs⟩ es := by
  have key : ∀ {v1 : Vq}, v1 = { v with popped := v.popped + 1 } →
      (v'.popped = v1.popped ∧ v'.mem.ok = v1.mem.ok ∧ Small v' ∧ Effect v1.mem v1 v' ⟨v.popped, head, descs⟩ es) →
      v'.popped = v.popped + 1 ∧ v'.mem.ok = v.mem.ok ∧ Small v' ∧ Effect v.mem v v' ⟨v.popped, head, descs⟩ es := by
    rintro v1 rfl ⟨h1, h2, h3, h4⟩
    refine ⟨h1, h2, h3, ?_⟩
    cases h4 with
    | bad a b c d => exact .bad a b c d
    | done st a b c => exact .done st a b c
    | hold r id q s a b c d e f g i => exact .hold r id q s a b c d e f g i
  have hs1 : Small { v with popped := v.popped + 1 } := hs
  unfold processChain at h
  simp only at h
  cases hp : parse v.mem descs with
  | error e =>
    rw [hp] at h
    simp only [completeBad, Res.ok.injEq, Prod.mk.injEq] at h
    obtain ⟨rfl, rfl⟩ := h
    exact ⟨rfl, rfl, hs, .bad rfl rfl rfl rfl⟩
  | ok r =>
    rw [hp] at h
    simp only at h
    have hst := parse_status hp
    cases ht : r.ty with
    | «in» => rw [ht] at h; exact key rfl (read_spec h hs1 hp ht)
    | out => rw [ht] at h; exact key rfl (write_spec h hs1 hp ht)
    | other =>
      rw [ht] at h
      simp only at h
      rw [complete_spec { v with popped := v.popped + 1 } _ _ _ _ hst] at h
      simp only [Res.ok.injEq, Prod.mk.injEq] at h
      obtain ⟨rfl, rfl⟩ := h
      exact ⟨rfl, rfl, hs, .done _ rfl rfl rfl⟩
    | flush =>
      rw [ht] at h
      simp only [processFlush] at h
      cases hg : getSlot { v with popped := v.popped + 1 } 0 r ⟨v.popped, head, descs⟩ with
      | mk v1 id =>
        simp only [hg, Res.ok.injEq, Prod.mk.injEq] at h
        obtain ⟨rfl, rfl⟩ := h
        obtain ⟨buf, h1, h2, h3, h4, h5, h6, h7⟩ := getSlot_spec hg hs1 (by decide)
        have e1 : v1.popped = v.popped + 1 := by rw [h7]
        have e2 : v1.mem = v.mem := by rw [h7]
        have e3 : v1.inflight = v.inflight := by rw [h7]
        have e4 : v1.pendingSignal = v.pendingSignal := by rw [h7]
        refine ⟨e1, by simp only [e2], h6, .hold r id _ (newSlot 0 r ⟨v.popped, head, descs⟩ buf) hp h1 h5 (by simp only [e3]) ?_ ht e2 e4⟩
        exact ⟨rfl, rfl, rfl, rfl, rfl, rfl, h2, fun hne => absurd ht hne⟩
    | getId =>
      rw [ht] at h
      simp only [processGetId] at h
      cases hd : r.data with
      | nil => rw [hd] at h; cases h
      | cons p _ =>
        obtain ⟨a, l⟩ := p
        rw [hd] at h
        simp only at h
        by_cases hl : l < 20
        · rw [if_pos hl, complete_spec { v with popped := v.popped + 1 } _ _ _ _ hst] at h
          simp only [Res.ok.injEq, Prod.mk.injEq] at h
          obtain ⟨rfl, rfl⟩ := h
          exact ⟨rfl, rfl, hs, .done _ rfl rfl rfl⟩
        · rw [if_neg hl, complete_spec _ _ _ _ _ (by rw [write_ok]; exact hst)] at h
          simp only [Res.ok.injEq, Prod.mk.injEq] at h
          obtain ⟨rfl, rfl⟩ := h
          exact ⟨rfl, write_ok _ _ _, hs, .done _ rfl rfl rfl⟩

/-- The effect of a device completion for the slot `s`. -/
structure Polled (v v' : Vq) (id : Nat) (s : Slot) (data : Bytes) (success : Bool) (es : List VEv) (st : UInt8) : Prop where
  ev : es = [.returned s.uid s.head (some st)]
  popped : v'.popped = v.popped
  held : held v' = upd (held v) id none
  inflight : v'.inflight = upd v.inflight id none
  ok : v'.mem.ok = v.mem.ok
  small : Small v'
  signal : v'.pendingSignal = true
  status : st = if success = true ∧ (s.ty = .in → ∀ a ∈ places s.data, v.mem.ok a = true) then S_OK else S_IOERR
  statusByte : v'.mem.bytes s.status = st
  outside : ∀ x, x ≠ s.status → (s.ty = .in ∧ success = true → x ∉ places s.data) → v'.mem.bytes x = v.mem.bytes x
  inside : st = S_OK → s.ty = .in → total s.data ≤ s.buf.length ∧ ((places s.data).Nodup →
    ∀ i a, (places s.data)[i]? = some a → a ≠ s.status → v'.mem.bytes a = (data ++ s.buf.drop data.length).getD i 0)

theorem poll_spec {v v' : Vq} {id : Nat} {s : Slot} {data : Bytes} {success : Bool} {es : List VEv} (hs : Small v)
    (hh : held v id = some s) (hok : v.mem.ok s.status = true) (hd : data.length ≤ s.buf.length)
    (h : pollOne (devDone v id data) id success = .ok (v', es)) : ∃ st, Polled v v' id s data success es st := by
  obtain ⟨hsl, hu⟩ := held_some.mp hh
  have hslot : (devDone v id data).slots[id]? = some { s with buf := data ++ s.buf.drop data.length } := by
    simp [devDone, hsl]
  have hlen : (data ++ s.buf.drop data.length).length = s.buf.length := by simp; omega
  have hsm : Small (devDone v id data) := by
    refine small_modify hs id _ fun t ht => ?_
    rw [hsl] at ht; obtain rfl := Option.some.inj ht
    simp only [hlen]; exact hs _ (List.mem_iff_getElem?.mpr ⟨id, hsl⟩)
  have hheld : ∀ (m : GMem) (b : Bool),
      held (putSlot { devDone v id data with mem := m, pendingSignal := b } id) = upd (held v) id none := by
    intro m b
    rw [held_put]
    have e : held { devDone v id data with mem := m, pendingSignal := b } = upd (held v) id _ := held_modify v id _
    rw [e]
    funext j
    by_cases hj : j = id
    · subst hj; rw [upd_same, upd_same]
    · rw [upd_ne _ _ hj, upd_ne _ _ hj, upd_ne _ _ hj]
  unfold pollOne at h
  rw [hslot] at h
  simp only at h
  have hmem : (devDone v id data).mem = v.mem := rfl
  by_cases hc : s.ty = .in ∧ success = true
  · rw [if_pos hc, hmem] at h
    cases hsc : scatter v.mem s.data 0 (data ++ s.buf.drop data.length) with
    | panic => rw [hsc] at h; cases h
    | ok p =>
      obtain ⟨m, b⟩ := p
      rw [hsc] at h
      obtain ⟨c1, c2, c3, c4⟩ := scatter_ok hsc (Nat.zero_le _)
      simp only at h
      rw [complete_spec _ _ _ _ _ (by simp only [c1]; exact hok)] at h
      simp only [Res.ok.injEq, Prod.mk.injEq] at h
      obtain ⟨rfl, rfl⟩ := h
      refine ⟨if b = true then S_OK else S_IOERR, rfl, rfl, hheld _ _, rfl, c1, small_put (v := { devDone v id data with mem := _, pendingSignal := _ }) hsm _, rfl, ?_, ?_, ?_, ?_⟩
      · by_cases hb : b = true
        · rw [if_pos hb, if_pos ⟨hc.2, fun _ => c3.mp hb⟩]
        · rw [if_neg hb, if_neg]
          rintro ⟨_, h⟩; exact hb (c3.mpr (h hc.1))
      · exact upd_same _ _ _
      · intro x hx hx'
        exact (upd_ne _ _ hx).trans (c2 x (hx' hc))
      · intro hst _
        have hb : b = true := by
          cases b with
          | true => rfl
          | false => simp [S_OK, S_IOERR] at hst
        obtain ⟨c5, c6⟩ := c4 hb
        rw [hlen, Nat.zero_add] at c5
        refine ⟨c5, fun hnd i a hi ha => (upd_ne _ _ ha).trans ?_⟩
        have := c6 hnd i a hi
        rwa [Nat.zero_add] at this
  · rw [if_neg hc] at h
    rw [complete_spec _ _ _ _ _ (by rw [hmem]; exact hok)] at h
    simp only [Res.ok.injEq, Prod.mk.injEq] at h
    obtain ⟨rfl, rfl⟩ := h
    refine ⟨if success = true then S_OK else S_IOERR, rfl, rfl, hheld _ _, rfl, rfl, small_put (v := { devDone v id data with mem := _, pendingSignal := _ }) hsm _, rfl, ?_, ?_, ?_, ?_⟩
    · by_cases hb : success = true
      · rw [if_pos hb, if_pos ⟨hb, fun h => absurd ⟨h, hb⟩ hc⟩]
      · rw [if_neg hb, if_neg fun h => hb h.1]
    · exact upd_same _ _ _
    · intro x hx _
      exact upd_ne _ _ hx
    · intro hst ht
      cases success with
      | true => exact absurd ⟨ht, rfl⟩ hc
      | false => simp [S_OK, S_IOERR] at hst

end Verif.Vhost
