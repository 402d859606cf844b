import Verif.Proof.Vhost

/-! # Properties of the vhost-user front end (C37-C40) -/

set_option maxRecDepth 8000

namespace Verif.Vhost
open Verif Verif.Metadata Verif.Disk

/-! ## C37: parsing -/

/-- What a guest must have put on the queue for the backend to see the request `r`. -/
structure Accepted (m : GMem) (ds : List Desc) (r : Request) : Prop where
  /-- the chain begins with a device-readable header in mapped memory, giving type and sector; a flush has sector 0 -/
  header : ∃ h, ds.head? = some h ∧ h.write = false ∧ (∀ x ∈ span h.addr 16, m.ok x = true) ∧
    r.ty = RType.ofCode (headerType m h.addr) ∧ r.sector = headerSector m h.addr ∧
    (headerType m h.addr = 4 → headerSector m h.addr = 0)
  /-- the data buffers are those of the chain, in order -/
  data : r.data = dataOf ds
  /-- a read only has device-writable buffers -/
  writable : r.ty = .in → ∀ d ∈ dataDescs ds, d.write = true
  /-- the last descriptor is a non-empty device-writable one in mapped memory: the status byte -/
  status : ∃ d, statusDesc ds = some d ∧ d.write = true ∧ 1 ≤ d.len ∧ m.ok d.addr = true ∧ r.status = d.addr

theorem ofCode_in {k : Nat} (h : RType.ofCode k = .in) : k = 0 := by
  unfold RType.ofCode at h
  by_cases h0 : k = 0
  · exact h0
  by_cases h1 : k = 1
  · rw [if_neg h0, if_pos h1] at h; cases h
  by_cases h4 : k = 4
  · rw [if_neg h0, if_neg h1, if_pos h4] at h; cases h
  by_cases h8 : k = 8
  · rw [if_neg h0, if_neg h1, if_neg h4, if_pos h8] at h; cases h
  · rw [if_neg h0, if_neg h1, if_neg h4, if_neg h8] at h; cases h

theorem ofCode_out {k : Nat} (h : RType.ofCode k = .out) : k = 1 := by
  unfold RType.ofCode at h
  by_cases h0 : k = 0
  · rw [if_pos h0] at h; cases h
  by_cases h1 : k = 1
  · exact h1
  by_cases h4 : k = 4
  · rw [if_neg h0, if_neg h1, if_pos h4] at h; cases h
  by_cases h8 : k = 8
  · rw [if_neg h0, if_neg h1, if_neg h4, if_pos h8] at h; cases h
  · rw [if_neg h0, if_neg h1, if_neg h4, if_neg h8] at h; cases h

theorem ofCode_getId {k : Nat} (h : RType.ofCode k = .getId) : k = 8 := by
  unfold RType.ofCode at h
  by_cases h0 : k = 0
  · rw [if_pos h0] at h; cases h
  by_cases h1 : k = 1
  · rw [if_neg h0, if_pos h1] at h; cases h
  by_cases h4 : k = 4
  · rw [if_neg h0, if_neg h1, if_pos h4] at h; cases h
  by_cases h8 : k = 8
  · exact h8
  · rw [if_neg h0, if_neg h1, if_neg h4, if_neg h8] at h; cases h

theorem slice_span (m : GMem) (a k n : Nat) (h : k + n ≤ 16) :
    slice ((span a 16).map m.bytes) k n = (span (a + k) n).map m.bytes := by
  apply List.ext_getElem?
  intro i
  by_cases hi : i < n
  · simp [slice, List.getElem?_take, List.getElem?_drop, hi, span, show k + i < 16 by omega, Nat.add_assoc]
  · rw [List.getElem?_eq_none (by simp [slice]; omega), List.getElem?_eq_none (by simp [span]; omega)]

/-- C37 for every chain and memory: exactly the well-formed chains are accepted, and the parsed request is the chain's;
every other chain is rejected. -/
theorem C37_parse_partial (m : GMem) (ds : List Desc) (r : Request) : parse m ds = .ok r ↔ Accepted m ds r := by
  cases ds with
  | nil =>
    constructor
    · intro h; cases h
    · rintro ⟨⟨h, hh, _⟩, _⟩; cases hh
  | cons h ds =>
    simp only [parse]
    cases hw : h.write with
    | true =>
      simp only [if_true]
      constructor
      · intro h; cases h
      · rintro ⟨⟨h', hh, hw', _⟩, _⟩
        simp only [List.head?_cons, Option.some.injEq] at hh
        subst hh; rw [hw] at hw'; cases hw'
    | false =>
      simp only [Bool.false_eq_true, if_false]
      cases hr : m.read h.addr 16 with
      | none =>
        constructor
        · intro h; cases h
        · rintro ⟨⟨h', hh, _, hall, _⟩, _⟩
          simp only [List.head?_cons, Option.some.injEq] at hh
          subst hh; exact absurd hall (read_none.mp hr)
      | some bs =>
        obtain ⟨hall, rfl⟩ := read_some.mp hr
        have e1 : fromLe (slice ((span h.addr 16).map m.bytes) 0 4) = headerType m h.addr := by
          rw [slice_span _ _ _ _ (by omega)]; rfl
        have e2 : fromLe (slice ((span h.addr 16).map m.bytes) 8 8) = headerSector m h.addr := by
          rw [slice_span _ _ _ _ (by omega)]; rfl
        simp only [e1, e2]
        by_cases hf : headerType m h.addr = 4 ∧ headerSector m h.addr ≠ 0
        · rw [if_pos hf]
          constructor
          · intro h; cases h
          · rintro ⟨⟨h', hh, _, _, _, _, h6⟩, _⟩
            simp only [List.head?_cons, Option.some.injEq] at hh
            subst hh; exact absurd (h6 hf.1) hf.2
        · rw [if_neg hf, parseData_ok]
          constructor
          · rintro ⟨h1, d, h2, h3, h4, h5, rfl⟩
            refine ⟨⟨h, rfl, hw, hall, rfl, rfl, ?_⟩, by simp [dataOf, dataDescs], h1, d, h2, h3, h4, h5, rfl⟩
            intro h4
            by_cases h0 : headerSector m h.addr = 0
            · exact h0
            · exact absurd ⟨h4, h0⟩ hf
          · rintro ⟨⟨h', hh, _, _, ht, hsec, _⟩, hd, hwr, d, h2, h3, h4, h5, h6⟩
            simp only [List.head?_cons, Option.some.injEq] at hh
            subst hh
            refine ⟨fun h => hwr (ht.trans h), d, h2, h3, h4, h5, ?_⟩
            obtain ⟨ty, data, sector, status⟩ := r
            simp only at ht hsec hd h6
            simp only [Request.mk.injEq]
            exact ⟨ht, by rw [hd]; simp [dataOf, dataDescs], hsec, h6⟩

/-- A memory of 4096 mapped bytes with a header of the given type and sector at address 0. -/
def demoMem0 (ty sector : UInt8) : GMem :=
  ⟨fun a => if a = 0 then ty else if a = 8 then sector else if a < 16 then 0 else 7, fun a => a < 4096⟩

/-- Header, data descriptors, status byte at 4000. -/
def demoChain (data : List (Nat × Nat × Bool)) : List Desc :=
  ⟨0, 16, false, true⟩ :: (data.map fun p => ⟨p.1, p.2.1, p.2.2, true⟩) ++ [⟨4000, 1, true, false⟩]

theorem demo_data (data : List (Nat × Nat × Bool)) :
    dataDescs (demoChain data) = data.map (fun p => ⟨p.1, p.2.1, p.2.2, true⟩) ∧
    dataOf (demoChain data) = data.map (fun p => (p.1, p.2.1)) ∧ statusDesc (demoChain data) = some ⟨4000, 1, true, false⟩ := by
  have h1 : dataDescs (demoChain data) = data.map (fun p => ⟨p.1, p.2.1, p.2.2, true⟩) := by
    simp only [dataDescs, demoChain, List.cons_append, List.tail_cons]
    induction data with
    | nil => rfl
    | cons p ps ih => simp only [List.map_cons, List.cons_append, List.takeWhile_cons, if_true, ih]
  refine ⟨h1, ?_, ?_⟩
  · rw [dataOf, h1, List.map_map]; rfl
  · simp only [statusDesc, demoChain, List.cons_append, List.tail_cons]
    clear h1
    induction data with
    | nil => rfl
    | cons p ps ih => simp only [List.map_cons, List.cons_append, List.dropWhile_cons, if_true, ih]

theorem demo_header (ty sector : UInt8) :
    headerType (demoMem0 ty sector) 0 = ty.toNat ∧ headerSector (demoMem0 ty sector) 0 = sector.toNat := by
  simp [headerType, headerSector, span, demoMem0, List.range, List.range.loop, fromLe]

theorem demo_accepted (ty sector : UInt8) (data : List (Nat × Nat × Bool)) (h4 : ty.toNat = 4 → sector.toNat = 0)
    (hw : ty.toNat = 0 → ∀ p ∈ data, p.2.2 = true) :
    Accepted (demoMem0 ty sector) (demoChain data) ⟨RType.ofCode ty.toNat, data.map (fun p => (p.1, p.2.1)), sector.toNat, 4000⟩ := by
  obtain ⟨h1, h2⟩ := demo_header ty sector
  obtain ⟨d1, d2, d3⟩ := demo_data data
  refine ⟨⟨⟨0, 16, false, true⟩, rfl, rfl, ?_, by simp only [h1], by simp only [h2], by simp only [h1, h2]; exact h4⟩, d2.symm, ?_,
    ⟨4000, 1, true, false⟩, d3, rfl, by decide, rfl, rfl⟩
  · intro x hx
    rw [mem_span] at hx
    simp only [demoMem0, decide_eq_true_eq] at hx ⊢; omega
  · intro ht d hd
    rw [d1, List.mem_map] at hd
    obtain ⟨p, hp, rfl⟩ := hd
    refine hw ?_ p hp
    exact ofCode_in ht

/-- A two-buffer read of sector 3 is accepted. -/
theorem demo_read_parsed :
    parse (demoMem0 0 3) (demoChain [(1000, 500, true), (2000, 12, true)]) = .ok ⟨.in, [(1000, 500), (2000, 12)], 3, 4000⟩ :=
  (C37_parse_partial _ _ _).mpr (demo_accepted 0 3 _ (by decide) (by simp))

/-- A read into a device-readable buffer is not. -/
example (r : Request) : parse (demoMem0 0 3) (demoChain [(1000, 512, false)]) ≠ .ok r := by
  intro h
  have hA := (C37_parse_partial _ _ _).mp h
  obtain ⟨hd, h1, _, _, h4, _⟩ := hA.header
  simp only [demoChain, List.cons_append, List.head?_cons, Option.some.injEq] at h1
  subst h1
  rw [(demo_header 0 3).1] at h4
  have := hA.writable h4 ⟨1000, 512, false, true⟩ (by rw [(demo_data _).1]; simp)
  cases this

/-- C37 is not true of writes as stated: a write whose data buffer is device-writable is accepted and its bytes are
sent to the disk. (The virtio specification allows the device to read such buffers.) -/
theorem C37_write_direction_unchecked :
    ∃ (m : GMem) (ds : List Desc) (r : Request), parse m ds = .ok r ∧ r.ty = .out ∧ r.data ≠ [] ∧
      ∀ d ∈ dataDescs ds, d.write = true :=
  ⟨demoMem0 1 3, demoChain [(1000, 512, true)], ⟨.out, [(1000, 512)], 3, 4000⟩,
    (C37_parse_partial _ _ _).mpr (demo_accepted 1 3 _ (by decide) (by simp)), rfl, by simp, by
    simp [(demo_data _).1]⟩

/-- A "get device id" request makes the device write into a buffer the guest declared device-readable. -/
theorem C37_get_id_writes_readable_buffer :
    ∃ (v v' : Vq) (ds : List Desc) (es : List VEv), processChain [65] v 0 ds = .ok (v', es) ∧
      (∀ d ∈ dataDescs ds, d.write = false) ∧ v.mem.bytes 1000 ≠ v'.mem.bytes 1000 ∧ ∃ d ∈ dataDescs ds, d.addr = 1000 := by
  have hp : parse (demoMem0 8 0) (demoChain [(1000, 20, false)]) = .ok ⟨.getId, [(1000, 20)], 0, 4000⟩ :=
    (C37_parse_partial _ _ _).mpr (demo_accepted 8 0 _ (by decide) (by simp))
  have hc : processChain [65] (Vq.init (demoMem0 8 0) 1 512) 0 (demoChain [(1000, 20, false)])
      = .ok (complete { Vq.init (demoMem0 8 0) 1 512 with popped := 1, mem := ((demoMem0 8 0).write 1000 (idBytes [65])).1 } 0 0 4000
          (if ((demoMem0 8 0).write 1000 (idBytes [65])).2 = true then S_OK else S_IOERR)) := by
    unfold processChain
    simp only [Vq.init, hp, processGetId]
    rw [if_neg (by decide)]
    congr 2
  rw [complete_spec _ _ _ _ _ (by simp only [write_ok]; rfl)] at hc
  refine ⟨_, _, _, _, hc, by simp [(demo_data _).1], ?_, ⟨⟨1000, 20, false, true⟩, by simp [(demo_data _).1], rfl⟩⟩
  simp only [Vq.init]
  rw [upd_ne _ _ (by decide)]
  have := write_inside (demoMem0 8 0) 1000 (idBytes [65]) ((write_done _ _ _).mpr (by
    intro x hx; rw [mem_span] at hx; simp [idBytes] at hx; simp [demoMem0]; omega)) 0 (by decide)
  rw [Nat.add_zero] at this
  rw [this]; decide

/-! ## The invariant of the backend thread -/

/-- What holds after every run of a backend thread. -/
structure Inv (v : Vq) (es : List VEv) : Prop where
  pop : poppedIds es = List.range v.popped
  nodup : (returnedIds es).Nodup
  lt : ∀ u ∈ returnedIds es, u < v.popped
  slot : ∀ i s, held v i = some s → s.uid < v.popped ∧ s.uid ∉ returnedIds es ∧ v.mem.ok s.status = true ∧
    ∃ (m : GMem) (r : Request) (descs : List Desc) (q : DevReq), VEv.popped s.uid s.head descs ∈ es ∧ parse m descs = .ok r ∧
      m.ok = v.mem.ok ∧ For r ⟨s.uid, s.head, descs⟩ s ∧ v.inflight i = some q ∧ Issued m r q
  excl : ∀ i j s t, held v i = some s → held v j = some t → s.uid = t.uid → i = j
  infl : ∀ i q, v.inflight i = some q → ∃ s, held v i = some s
  cover : ∀ u, u < v.popped → u ∈ returnedIds es ∨ ∃ i s, held v i = some s ∧ s.uid = u
  small : Small v
  heads : ∀ u h st, VEv.returned u h st ∈ es → ∃ descs, VEv.popped u h descs ∈ es

theorem poppedIds_append (a b : List VEv) : poppedIds (a ++ b) = poppedIds a ++ poppedIds b := List.filterMap_append ..
theorem returnedIds_append (a b : List VEv) : returnedIds (a ++ b) = returnedIds a ++ returnedIds b := List.filterMap_append ..

theorem inv_init (mem : GMem) (n bs : Nat) (hbs : bs < 2 ^ 32) : Inv (Vq.init mem n bs) [] := by
  have hno : ∀ i s, held (Vq.init mem n bs) i ≠ some s := by
    intro i s h
    obtain ⟨h1, h2⟩ := held_some.mp h
    have := List.mem_of_getElem? h1
    simp only [Vq.init, List.mem_replicate] at this
    rw [this.2] at h2; cases h2
  refine ⟨rfl, List.nodup_nil, fun _ h => (nomatch h), fun i s h => absurd h (hno i s), fun i j s t h => absurd h (hno i s),
    fun i q h => (nomatch h), fun u h => absurd h (Nat.not_lt_zero _), ?_, fun _ _ _ h => (nomatch h)⟩
  intro s hs
  simp only [Vq.init, List.mem_replicate] at hs
  rw [hs.2]; simpa using hbs

/-- A chain that is returned at once. -/
theorem inv_done {v v' : Vq} {es : List VEv} {head : Nat} {descs : List Desc} {st : Option UInt8} (hv : Inv v es)
    (h1 : v'.popped = v.popped + 1) (h2 : v'.mem.ok = v.mem.ok) (h3 : Small v') (h4 : held v' = held v)
    (h5 : v'.inflight = v.inflight) : Inv v' (es ++ [.popped v.popped head descs, .returned v.popped head st]) := by
  have hret : returnedIds (es ++ [.popped v.popped head descs, .returned v.popped head st]) = returnedIds es ++ [v.popped] := by
    rw [returnedIds_append]; rfl
  refine ⟨?_, ?_, ?_, ?_, ?_, ?_, ?_, h3, ?_⟩
  · rw [poppedIds_append, hv.pop, h1, List.range_succ]; rfl
  · rw [hret, List.nodup_append]
    refine ⟨hv.nodup, List.nodup_cons.mpr ⟨List.not_mem_nil, List.nodup_nil⟩, ?_⟩
    intro a ha b hb
    rw [List.mem_singleton] at hb
    have := hv.lt a ha
    omega
  · rw [hret, h1]
    intro u hu
    rcases List.mem_append.mp hu with hu | hu
    · have := hv.lt u hu; omega
    · rw [List.mem_singleton] at hu; omega
  · intro i s hi
    rw [h4] at hi
    obtain ⟨a, b, c, m, r, ds, q, d, e, f, g, k, l⟩ := hv.slot i s hi
    refine ⟨by omega, ?_, by rw [h2]; exact c, m, r, ds, q, List.mem_append_left _ d, e, by rw [h2]; exact f, g,
      by rw [h5]; exact k, l⟩
    rw [hret]
    intro hu
    rcases List.mem_append.mp hu with hu | hu
    · exact b hu
    · rw [List.mem_singleton] at hu; omega
  · rw [h4]; exact hv.excl
  · rw [h4, h5]; exact hv.infl
  · rw [h4, hret, h1]
    intro u hu
    by_cases he : u = v.popped
    · left; rw [he]; simp
    · rcases hv.cover u (by omega) with h | h
      · exact Or.inl (List.mem_append_left _ h)
      · exact Or.inr h
  · intro u h st' hm
    rcases List.mem_append.mp hm with hm | hm
    · obtain ⟨ds, hd⟩ := hv.heads u h st' hm
      exact ⟨ds, List.mem_append_left _ hd⟩
    · simp only [List.mem_cons, List.not_mem_nil, or_false, reduceCtorEq, false_or, VEv.returned.injEq] at hm
      obtain ⟨rfl, rfl, rfl⟩ := hm
      exact ⟨descs, List.mem_append_right _ (List.mem_cons_self ..)⟩

theorem inv_step {dev : Bytes} {v v' : Vq} {es es' : List VEv} (hv : Inv v es) (h : Step dev v es' v') : Inv v' (es ++ es') := by
  cases h with
  | guest bytes =>
    rw [List.append_nil]
    exact ⟨hv.pop, hv.nodup, hv.lt, hv.slot, hv.excl, hv.infl, hv.cover, hv.small, hv.heads⟩
  | notify =>
    have hr : ∀ b : Bool, returnedIds (es ++ if b then [VEv.signal] else []) = returnedIds es := by
      intro b; rw [returnedIds_append]; cases b <;> simp [returnedIds]
    have hp : ∀ b : Bool, poppedIds (es ++ if b then [VEv.signal] else []) = poppedIds es := by
      intro b; rw [poppedIds_append]; cases b <;> simp [poppedIds]
    refine ⟨by rw [hp]; exact hv.pop, by rw [hr]; exact hv.nodup, by rw [hr]; exact hv.lt, ?_, hv.excl, hv.infl,
      by rw [hr]; exact hv.cover, hv.small, ?_⟩
    · intro i s hi
      obtain ⟨a, b, c, m, r, ds, q, d, e⟩ := hv.slot i s hi
      exact ⟨a, by rw [hr]; exact b, c, m, r, ds, q, List.mem_append_left _ d, e⟩
    · intro u h st hm
      rcases List.mem_append.mp hm with hm | hm
      · obtain ⟨ds, hd⟩ := hv.heads u h st hm
        exact ⟨ds, List.mem_append_left _ hd⟩
      · split at hm <;> simp at hm
  | pop _ head descs es1 hlen hc =>
    obtain ⟨h1, h2, h3, he⟩ := chain_spec hc hv.small
    cases he with
    | bad h4 h5 _ _ => exact inv_done hv h1 h2 h3 h4 h5
    | done st h4 h5 _ => exact inv_done hv h1 h2 h3 h4 h5
    | hold r id q s hp hn h4 h5 hf hq hm _ =>
      have hret : returnedIds (es ++ [.popped v.popped head descs, .dev id q]) = returnedIds es := by
        rw [returnedIds_append]; simp [returnedIds]
      have hst : v.mem.ok s.status = true := by rw [hf.status]; exact parse_status hp
      refine ⟨?_, by rw [hret]; exact hv.nodup, ?_, ?_, ?_, ?_, ?_, h3, ?_⟩
      · rw [poppedIds_append, hv.pop, h1, List.range_succ]; rfl
      · rw [hret, h1]; intro u hu; have := hv.lt u hu; omega
      · intro i t hi
        rw [h4] at hi
        rw [hret]
        by_cases hid : i = id
        · subst hid
          rw [upd_same] at hi
          obtain rfl := Option.some.inj hi
          have hu : s.uid = v.popped := hf.uid
          have hh : s.head = head := hf.head
          refine ⟨by omega, fun hmem => by have := hv.lt _ hmem; omega, by rw [h2]; exact hst, v.mem, r, descs, q, ?_, hp,
            h2.symm, ?_, by rw [h5, upd_same], hq⟩
          · rw [hu, hh]; simp
          · rw [hu, hh]; exact hf
        · rw [upd_ne _ _ hid] at hi
          obtain ⟨a, b, c, m, r', ds, q', d, e, f, g, k, l⟩ := hv.slot i t hi
          exact ⟨by omega, b, by rw [h2]; exact c, m, r', ds, q', List.mem_append_left _ d, e, by rw [h2]; exact f, g,
            by rw [h5, upd_ne _ _ hid]; exact k, l⟩
      · intro i j a b hi hj hab
        rw [h4] at hi hj
        have hu : s.uid = v.popped := hf.uid
        by_cases hid : i = id <;> by_cases hjd : j = id
        · rw [hid, hjd]
        · exfalso
          rw [hid, upd_same] at hi; rw [upd_ne _ _ hjd] at hj
          obtain rfl := Option.some.inj hi
          have := (hv.slot j b hj).1; omega
        · exfalso
          rw [hjd, upd_same] at hj; rw [upd_ne _ _ hid] at hi
          obtain rfl := Option.some.inj hj
          have := (hv.slot i a hi).1; omega
        · rw [upd_ne _ _ hid] at hi; rw [upd_ne _ _ hjd] at hj
          exact hv.excl i j a b hi hj hab
      · intro i q' hi
        rw [h5] at hi
        rw [h4]
        by_cases hid : i = id
        · subst hid; exact ⟨s, upd_same _ _ _⟩
        · rw [upd_ne _ _ hid] at hi ⊢; exact hv.infl i q' hi
      · intro u hu
        rw [hret, h4]
        by_cases he : u = v.popped
        · exact Or.inr ⟨id, s, upd_same _ _ _, by rw [he]; exact hf.uid⟩
        · rcases hv.cover u (by omega) with h | ⟨i, t, hi, ht⟩
          · exact Or.inl h
          · right
            refine ⟨i, t, ?_, ht⟩
            rw [upd_ne]; · exact hi
            intro hid; subst hid; rw [hn] at hi; cases hi
      · intro u h st hmm
        rcases List.mem_append.mp hmm with hmm | hmm
        · obtain ⟨ds, hd⟩ := hv.heads u h st hmm
          exact ⟨ds, List.mem_append_left _ hd⟩
        · simp at hmm
  | poll _ id q data success _ hi hfill hpo =>
    obtain ⟨s, hs⟩ := hv.infl id q hi
    obtain ⟨a, b, c, m, r, ds, q', d, e, f, g, k, l⟩ := hv.slot id s hs
    rw [hi] at k; obtain rfl := Option.some.inj k
    have hdl : data.length ≤ s.buf.length := by
      cases q with
      | read sec cnt =>
        simp only [DevReq.filled] at hfill
        obtain ⟨l1, _, l3⟩ := l
        rw [hfill, l3, ← g.len (by rw [g.ty, l1]; decide)]; exact g.fits
      | write => simp only [DevReq.filled] at hfill; rw [hfill]; simp
      | flush => simp only [DevReq.filled] at hfill; rw [hfill]; simp
    obtain ⟨st, hP⟩ := poll_spec hv.small hs c hdl hpo
    have hret : returnedIds (es ++ es') = returnedIds es ++ [s.uid] := by rw [returnedIds_append, hP.ev]; rfl
    refine ⟨?_, ?_, ?_, ?_, ?_, ?_, ?_, hP.small, ?_⟩
    · rw [poppedIds_append, hP.ev, hP.popped, hv.pop]; simp [poppedIds]
    · rw [hret, List.nodup_append]
      refine ⟨hv.nodup, List.nodup_cons.mpr ⟨List.not_mem_nil, List.nodup_nil⟩, ?_⟩
      rintro x hx y hy rfl
      rw [List.mem_singleton] at hy
      exact b (hy ▸ hx)
    · rw [hret, hP.popped]
      intro u hu
      rcases List.mem_append.mp hu with hu | hu
      · exact hv.lt u hu
      · rw [List.mem_singleton] at hu; rw [hu]; exact a
    · intro i t ht
      rw [hP.held] at ht
      by_cases hid : i = id
      · rw [hid, upd_same] at ht; cases ht
      rw [upd_ne _ _ hid] at ht
      obtain ⟨a', b', c', m', r', ds', q', d', e', f', g', k', l'⟩ := hv.slot i t ht
      refine ⟨by rw [hP.popped]; exact a', ?_, by rw [hP.ok]; exact c', m', r', ds', q', List.mem_append_left _ d', e',
        by rw [hP.ok]; exact f', g', by rw [hP.inflight, upd_ne _ _ hid]; exact k', l'⟩
      rw [hret]
      intro hu
      rcases List.mem_append.mp hu with hu | hu
      · exact b' hu
      · rw [List.mem_singleton] at hu
        exact hid (hv.excl i id t s ht hs hu)
    · intro i j x y hx hy hxy
      rw [hP.held] at hx hy
      by_cases hid : i = id
      · rw [hid, upd_same] at hx; cases hx
      by_cases hjd : j = id
      · rw [hjd, upd_same] at hy; cases hy
      rw [upd_ne _ _ hid] at hx; rw [upd_ne _ _ hjd] at hy
      exact hv.excl i j x y hx hy hxy
    · intro i q' hi'
      rw [hP.inflight] at hi'
      by_cases hid : i = id
      · rw [hid, upd_same] at hi'; cases hi'
      rw [upd_ne _ _ hid] at hi'
      rw [hP.held, upd_ne _ _ hid]; exact hv.infl i q' hi'
    · intro u hu
      rw [hP.popped] at hu
      rw [hret, hP.held]
      rcases hv.cover u hu with h | ⟨i, t, ht, hut⟩
      · exact Or.inl (List.mem_append_left _ h)
      · by_cases hid : i = id
        · left
          subst hid
          rw [hs] at ht; obtain rfl := Option.some.inj ht
          rw [← hut]; simp
        · exact Or.inr ⟨i, t, by rw [upd_ne _ _ hid]; exact ht, hut⟩
    · intro u h st' hm
      rcases List.mem_append.mp hm with hm | hm
      · obtain ⟨ds', hd⟩ := hv.heads u h st' hm
        exact ⟨ds', List.mem_append_left _ hd⟩
      · rw [hP.ev] at hm
        simp only [List.mem_singleton, VEv.returned.injEq] at hm
        obtain ⟨rfl, rfl, _⟩ := hm
        exact ⟨ds, List.mem_append_left _ d⟩

variable {dev : Bytes} {mem : GMem} {n bs : Nat} {es : List VEv} {v : Vq}

theorem run_inv (hbs : bs < 2 ^ 32) (h : Run dev (Vq.init mem n bs) es v) : Inv v es := by
  generalize hi : Vq.init mem n bs = v0 at h
  induction h with
  | nil => subst hi; exact inv_init mem n bs hbs
  | snoc _ hs ih => exact inv_step ih hs

/-! ## C38 -/

/-- C38, at most once: no chain is returned to the guest twice, only popped chains are returned, and each with the head
index it was popped with. -/
theorem C38_at_most_once (hbs : bs < 2 ^ 32) (h : Run dev (Vq.init mem n bs) es v) :
    (poppedIds es).Nodup ∧ (returnedIds es).Nodup ∧
      ∀ u hd st, VEv.returned u hd st ∈ es → ∃ descs, VEv.popped u hd descs ∈ es := by
  have hI := run_inv hbs h
  exact ⟨by rw [hI.pop]; exact List.nodup_range, hI.nodup, hI.heads⟩

/-- C38, slots: a slot in use belongs to a popped chain that has not been returned, no two belong to the same chain, and
the slots in use are those of the requests the device has not reported. -/
theorem C38_slots_exclusive (hbs : bs < 2 ^ 32) (h : Run dev (Vq.init mem n bs) es v) :
    (∀ (i : Nat) (s : Slot), v.slots[i]? = some s → s.used = true → s.uid ∈ poppedIds es ∧ s.uid ∉ returnedIds es) ∧
    (∀ (i j : Nat) (s t : Slot), v.slots[i]? = some s → v.slots[j]? = some t → s.used = true → t.used = true →
      s.uid = t.uid → i = j) ∧
    ∀ i : Nat, (∃ s : Slot, v.slots[i]? = some s ∧ s.used = true) ↔ v.inflight i ≠ none := by
  have hI := run_inv hbs h
  refine ⟨fun i s h1 h2 => ?_, fun i j s t h1 h2 h3 h4 => hI.excl i j s t (held_some.mpr ⟨h1, h3⟩) (held_some.mpr ⟨h2, h4⟩), ?_⟩
  · obtain ⟨a, b, _⟩ := hI.slot i s (held_some.mpr ⟨h1, h2⟩)
    exact ⟨by rw [hI.pop]; exact List.mem_range.mpr a, b⟩
  · intro i
    constructor
    · rintro ⟨s, h1, h2⟩ hn
      obtain ⟨_, _, _, _, _, _, _, _, _, _, _, k, _⟩ := hI.slot i s (held_some.mpr ⟨h1, h2⟩)
      rw [hn] at k; cases k
    · intro hn
      cases hi : v.inflight i with
      | none => exact absurd hi hn
      | some q =>
        obtain ⟨s, hs⟩ := hI.infl i q hi
        exact ⟨s, held_some.mp hs⟩

/-- C38, none forgotten: when the device has reported everything, every chain has been returned. -/
theorem C38_all_returned (hbs : bs < 2 ^ 32) (h : Run dev (Vq.init mem n bs) es v) (hq : ∀ i, v.inflight i = none) :
    ∀ u ∈ poppedIds es, u ∈ returnedIds es := by
  have hI := run_inv hbs h
  intro u hu
  rw [hI.pop, List.mem_range] at hu
  rcases hI.cover u hu with h | ⟨i, s, hs, _⟩
  · exact h
  · obtain ⟨_, _, _, _, _, _, _, _, _, _, _, k, _⟩ := hI.slot i s hs
    rw [hq] at k; cases k

/-- A step that leaves nothing to signal. -/
theorem step_quiet {v v' : Vq} {es : List VEv} (h : Step dev v es v') (hs : Small v) (hq : v'.pendingSignal = false)
    (hpoll : ∀ i q, v.inflight i = some q → ∃ s, held v i = some s ∧ v.mem.ok s.status = true ∧
      ∀ d : Bytes, q.filled d → d.length ≤ s.buf.length) :
    (v.pendingSignal = false ∨ VEv.signal ∈ es) ∧ ∀ u hd st, VEv.returned u hd (some st) ∉ es := by
  cases h with
  | guest => exact ⟨Or.inl hq, fun _ _ _ h => (nomatch h)⟩
  | notify =>
    refine ⟨?_, ?_⟩
    · cases hp : v.pendingSignal with
      | false => exact Or.inl rfl
      | true => right; simp
    · intro u hd st h
      split at h <;> simp at h
  | pop _ head descs es1 hlen hc =>
    obtain ⟨_, _, _, he⟩ := chain_spec hc hs
    cases he with
    | bad _ _ _ h => exact ⟨Or.inl (h ▸ hq), by simp⟩
    | done _ _ _ h => rw [h] at hq; cases hq
    | hold _ _ _ _ _ _ _ _ _ _ _ h => exact ⟨Or.inl (h ▸ hq), by simp⟩
  | poll _ id q data success _ hi hfill hpo =>
    obtain ⟨s, h1, h2, h3⟩ := hpoll id q hi
    obtain ⟨st, hP⟩ := poll_spec hs h1 h2 (h3 _ hfill) hpo
    rw [hP.signal] at hq; cases hq

theorem inv_poll (hI : Inv v es) (i : Nat) (q : DevReq) (hi : v.inflight i = some q) :
    ∃ s, held v i = some s ∧ v.mem.ok s.status = true ∧ ∀ d : Bytes, q.filled d → d.length ≤ s.buf.length := by
  obtain ⟨s, hs⟩ := hI.infl i q hi
  obtain ⟨_, _, c, m, r, ds, q', _, _, _, g, k, l⟩ := hI.slot i s hs
  rw [hi] at k; obtain rfl := Option.some.inj k
  refine ⟨s, hs, c, fun data hfill => ?_⟩
  cases q with
  | read sec cnt =>
    simp only [DevReq.filled] at hfill
    obtain ⟨l1, _, l3⟩ := l
    rw [hfill, l3, ← g.len (by rw [g.ty, l1]; decide)]; exact g.fits
  | write => simp only [DevReq.filled] at hfill; rw [hfill]; simp
  | flush => simp only [DevReq.filled] at hfill; rw [hfill]; simp

/-- C38, notification: whenever nothing is pending to be signalled, every completion with a status byte has been followed
by a notification of the guest. -/
theorem C38_signalled (hbs : bs < 2 ^ 32) (h : Run dev (Vq.init mem n bs) es v) (hq : v.pendingSignal = false)
    (pre post : List VEv) (u hd : Nat) (st : UInt8) (he : es = pre ++ .returned u hd (some st) :: post) : VEv.signal ∈ post := by
  generalize hi : Vq.init mem n bs = v0 at h
  induction h generalizing pre post with
  | nil => simp at he
  | snoc hr hs ih =>
    subst hi
    rename_i v1 v2 es1 es2
    have hI := run_inv hbs hr
    obtain ⟨h1, h2⟩ := step_quiet hs hI.small hq (inv_poll hI)
    rcases List.append_eq_append_iff.mp he with ⟨a, rfl, h⟩ | ⟨c, h, h'⟩
    · exact absurd (show VEv.returned u hd (some st) ∈ es2 by rw [h]; simp) (h2 u hd st)
    · cases c with
      | nil =>
        rw [List.nil_append] at h'
        exact absurd (show VEv.returned u hd (some st) ∈ es2 by rw [← h']; simp) (h2 u hd st)
      | cons x c =>
        rw [List.cons_append] at h'
        injection h' with hx hpost
        subst hx
        rw [hpost]
        rcases h1 with h1 | h1
        · exact List.mem_append_left _ (ih h1 pre c h)
        · exact List.mem_append_right _ h1

/-- A malformed chain is returned without a notification of its own: the thread ends its round with the chain returned
and no signal, and nothing pending. -/
theorem C38_bad_chain_not_signalled :
    ∃ (es : List VEv) (v : Vq), Run [65] (Vq.init (demoMem0 0 3) 1 512) es v ∧ returnedIds es = [0] ∧ VEv.signal ∉ es ∧
      v.pendingSignal = false := by
  refine ⟨_, _, .snoc (.snoc (.nil _) (.pop _ _ 5 [] _ (by simp) rfl)) (.notify _), rfl, ?_, rfl⟩
  simp [completeBad, Vq.init]

/-! ## C39 -/

/-- C39, writes: what is sent to the disk for a guest write is the concatenation of the guest buffers in order, for the
sector of the header and exactly as many sectors as the buffers hold. -/
theorem C39_write (hbs : bs < 2 ^ 32) (h : Run dev (Vq.init mem n bs) es v) {v' : Vq} {head : Nat} {descs : List Desc}
    {es' : List VEv} (hc : processChain dev v head descs = .ok (v', es')) {id sec cnt : Nat} {d : Bytes}
    (he : VEv.dev id (.write sec cnt d) ∈ es') :
    d = (places (dataOf descs)).map v.mem.bytes ∧ cnt * 512 = total (dataOf descs) ∧
    ∃ hd, descs.head? = some hd ∧ headerType v.mem hd.addr = 1 ∧ sec = headerSector v.mem hd.addr := by
  have hI := run_inv hbs h
  obtain ⟨_, _, _, hE⟩ := chain_spec hc hI.small
  cases hE with
  | bad => simp at he
  | done => simp at he
  | hold r id' q s hp _ _ _ _ hq _ _ =>
    simp only [List.mem_singleton, VEv.dev.injEq] at he
    obtain ⟨rfl, rfl⟩ := he
    obtain ⟨q1, q2, q3, q4, _⟩ := hq
    have hA := (C37_parse_partial _ _ _).mp hp
    obtain ⟨hd, a1, _, _, a4, a5, _⟩ := hA.header
    have hdat : r.data = dataOf descs := hA.data
    rw [hdat] at q3 q4
    refine ⟨q4, q3, hd, a1, ?_, q2.trans a5⟩
    rw [q1] at a4
    exact ofCode_out a4.symm

/-- C39, reads: what is asked of the disk for a guest read is the header's sector and, for less than 4 GiB, exactly as
many sectors as the buffers hold. -/
theorem C39_read_issued (hbs : bs < 2 ^ 32) (h : Run dev (Vq.init mem n bs) es v) {v' : Vq} {head : Nat} {descs : List Desc}
    {es' : List VEv} (hc : processChain dev v head descs = .ok (v', es')) {id sec cnt : Nat}
    (he : VEv.dev id (.read sec cnt) ∈ es') :
    cnt * 512 = total (dataOf descs) % 2 ^ 32 ∧
    ∃ hd, descs.head? = some hd ∧ headerType v.mem hd.addr = 0 ∧ sec = headerSector v.mem hd.addr := by
  have hI := run_inv hbs h
  obtain ⟨_, _, _, hE⟩ := chain_spec hc hI.small
  cases hE with
  | bad => simp at he
  | done => simp at he
  | hold r id' q s hp _ _ _ _ hq _ _ =>
    simp only [List.mem_singleton, VEv.dev.injEq] at he
    obtain ⟨rfl, rfl⟩ := he
    obtain ⟨q1, q2, q3⟩ := hq
    have hA := (C37_parse_partial _ _ _).mp hp
    obtain ⟨hd, a1, _, _, a4, a5, _⟩ := hA.header
    have hdat : r.data = dataOf descs := hA.data
    rw [hdat] at q3
    refine ⟨q3, hd, a1, ?_, q2.trans a5⟩
    rw [q1] at a4
    exact ofCode_in a4.symm

/-- C39, reads: when the disk has delivered `data` for a guest read, the chain is returned once; its status byte says
whether all its buffers are mapped; only the buffers and the status byte are touched; and on success byte `i` of the
data is at position `i` of the concatenated buffers (for buffers that do not overlap). -/
theorem C39_read (hbs : bs < 2 ^ 32) (h : Run dev (Vq.init mem n bs) es v) {v' : Vq} {id sec cnt : Nat} {data : Bytes}
    {es' : List VEv} (hi : v.inflight id = some (.read sec cnt)) (hd : data.length = cnt * 512)
    (hp : pollOne (devDone v id data) id true = .ok (v', es')) :
    ∃ uid head descs sd st, VEv.popped uid head descs ∈ es ∧ statusDesc descs = some sd ∧
      es' = [.returned uid head (some st)] ∧ v'.mem.bytes sd.addr = st ∧
      (st = if ∀ a ∈ places (dataOf descs), v.mem.ok a = true then S_OK else S_IOERR) ∧
      (∀ x, x ≠ sd.addr → x ∉ places (dataOf descs) → v'.mem.bytes x = v.mem.bytes x) ∧
      (st = S_OK → (places (dataOf descs)).length = data.length ∧ ((places (dataOf descs)).Nodup →
        ∀ i a, (places (dataOf descs))[i]? = some a → a ≠ sd.addr → v'.mem.bytes a = data.getD i 0)) := by
  have hI := run_inv hbs h
  obtain ⟨s, hs⟩ := hI.infl _ _ hi
  obtain ⟨_, _, c, m, r, ds, q', d, e, f, g, k, l⟩ := hI.slot _ s hs
  rw [hi] at k; obtain rfl := Option.some.inj k
  obtain ⟨l1, _, l3⟩ := l
  have hty : s.ty = .in := g.ty.trans l1
  have hlen := g.len (by rw [hty]; decide)
  have hfit : data.length ≤ s.buf.length := by rw [hd, l3, ← hlen]; exact g.fits
  obtain ⟨st, hP⟩ := poll_spec hI.small hs c hfit hp
  have hA := (C37_parse_partial _ _ _).mp e
  obtain ⟨sd, b1, _, _, _, b5⟩ := hA.status
  have hsd : s.status = sd.addr := g.status.trans b5
  have hdat : s.data = dataOf ds := g.data.trans hA.data
  have hb : s.buf.length < 2 ^ 32 := hI.small s (List.mem_of_getElem? (held_some.mp hs).1)
  refine ⟨s.uid, s.head, ds, sd, st, d, b1, hP.ev, hsd ▸ hP.statusByte, ?_, ?_, ?_⟩
  · have := hP.status
    rw [hdat] at this
    rw [this]
    by_cases hall : ∀ a ∈ places (dataOf ds), v.mem.ok a = true
    · rw [if_pos hall, if_pos ⟨rfl, fun _ => hall⟩]
    · rw [if_neg hall, if_neg fun h => hall (h.2 hty)]
  · intro x hx hx'
    exact hP.outside x (hsd ▸ hx) fun _ => hdat ▸ hx'
  · intro hst
    obtain ⟨i1, i2⟩ := hP.inside hst hty
    have htot : total s.data = data.length := by
      rw [hd, l3, ← g.data, Nat.mod_eq_of_lt (by omega)]
    rw [hdat] at i2 htot
    refine ⟨by rw [places_length, htot], fun hnd i a hia hne => ?_⟩
    rw [i2 hnd i a hia (hsd ▸ hne)]
    have hil : i < data.length := by
      have := (List.getElem?_eq_some_iff.mp hia).1
      rw [places_length, htot] at this; exact this
    simp [List.getD_eq_getElem?_getD, List.getElem?_append_left hil]

/-- C39: completing a write or a flush, or a read that failed, changes nothing in guest memory but the status byte, and
the status byte tells success from failure. -/
theorem C39_only_status (hbs : bs < 2 ^ 32) (h : Run dev (Vq.init mem n bs) es v) {v' : Vq} {id : Nat} {q : DevReq} {data : Bytes}
    {success : Bool} {es' : List VEv} (hi : v.inflight id = some q) (hd : q.filled data)
    (hq : success = false ∨ ∀ sec cnt, q ≠ .read sec cnt)
    (hp : pollOne (devDone v id data) id success = .ok (v', es')) :
    ∃ uid head descs sd st, VEv.popped uid head descs ∈ es ∧ statusDesc descs = some sd ∧
      es' = [.returned uid head (some st)] ∧ (st = if success then S_OK else S_IOERR) ∧ v'.mem.bytes sd.addr = st ∧
      ∀ x, x ≠ sd.addr → v'.mem.bytes x = v.mem.bytes x := by
  have hI := run_inv hbs h
  obtain ⟨s, hs⟩ := hI.infl _ _ hi
  obtain ⟨_, _, c, m, r, ds, q', d, e, f, g, k, l⟩ := hI.slot _ s hs
  rw [hi] at k; obtain rfl := Option.some.inj k
  obtain ⟨s', hs', _, hfit⟩ := inv_poll hI id q hi
  rw [hs] at hs'; obtain rfl := Option.some.inj hs'
  obtain ⟨st, hP⟩ := poll_spec hI.small hs c (hfit _ hd) hp
  have hA := (C37_parse_partial _ _ _).mp e
  obtain ⟨sd, b1, _, _, _, b5⟩ := hA.status
  have hsd : s.status = sd.addr := g.status.trans b5
  have hnr : ¬(s.ty = .in ∧ success = true) := by
    rintro ⟨h1, h2⟩
    rcases hq with hq | hq
    · rw [hq] at h2; cases h2
    · cases q with
      | read sec cnt => exact hq sec cnt rfl
      | write => have := l.1; rw [g.ty, this] at h1; cases h1
      | flush => have : r.ty = .flush := l; rw [g.ty, this] at h1; cases h1
  refine ⟨s.uid, s.head, ds, sd, st, d, b1, hP.ev, ?_, hsd ▸ hP.statusByte, ?_⟩
  · rw [hP.status]
    by_cases hsu : success = true
    · rw [if_pos ⟨hsu, fun h => absurd ⟨h, hsu⟩ hnr⟩, if_pos hsu]
    · rw [if_neg fun h => hsu h.1, if_neg hsu]
  · intro x hx
    exact hP.outside x (hsd ▸ hx) fun h => absurd h hnr

/-! ## C40 -/

/-- C40 is false: a well-formed "get device id" request without a data buffer panics the thread, in every state. -/
theorem C40_get_id_without_buffer_panics (dev : Bytes) (v : Vq) (head : Nat) (descs : List Desc) (r : Request)
    (h : Accepted v.mem descs r) (ht : r.ty = .getId) (hd : dataOf descs = []) : processChain dev v head descs = .panic := by
  have hp := (C37_parse_partial _ _ _).mpr h
  have hdat : r.data = [] := h.data.trans hd
  unfold processChain
  simp only [hp, ht, processGetId, hdat]

/-- The request of `C40_get_id_without_buffer_panics`. -/
example : Accepted (demoMem0 8 0) (demoChain []) ⟨.getId, [], 0, 4000⟩ := demo_accepted 8 0 [] (by decide) (by simp)

/-- C40 is false: a well-formed write of 4 GiB or more (in whole sectors) panics the thread, in every reachable state. -/
theorem C40_huge_write_panics (hbs : bs < 2 ^ 32) (h : Run dev (Vq.init mem n bs) es v) (head : Nat) (descs : List Desc)
    (r : Request) (ha : Accepted v.mem descs r) (ht : r.ty = .out) (hbig : 2 ^ 32 ≤ total (dataOf descs))
    (hsec : total (dataOf descs) % 512 = 0) : processChain dev v head descs = .panic := by
  have hI := run_inv hbs h
  have hp := (C37_parse_partial _ _ _).mpr ha
  have hdat : r.data = dataOf descs := ha.data
  unfold processChain
  simp only [hp, ht]
  unfold processWrite
  have hl : ¬requestLen r % 512 ≠ 0 := by rw [requestLen_eq, hdat]; omega
  simp only [if_neg hl]
  cases hg : getSlot { v with popped := v.popped + 1 } (requestLen r) r ⟨v.popped, head, descs⟩ with
  | mk v1 id =>
    obtain ⟨buf, _, _, h3, h4, _⟩ := getSlot_spec hg hI.small (Nat.mod_lt _ (by decide))
    simp only
    have hbuf : ((v1.slots[id]?).map Slot.buf).getD [] = buf := by rw [h4]; rfl
    rw [hbuf]
    cases hga : gather v1.mem r.data 0 buf false with
    | panic => rfl
    | ok p =>
      obtain ⟨b, f⟩ := p
      have := (gather_ok hga (Nat.zero_le _)).1
      rw [hdat] at this
      omega

/-- The request of `C40_huge_write_panics`: 4096 buffers of 1 MiB would do; here one of 2^32 - 512 and one of 512 bytes. -/
example : Accepted (demoMem0 1 0) (demoChain [(100, 4294966784, false), (100, 512, false)])
      ⟨.out, [(100, 4294966784), (100, 512)], 0, 4000⟩ ∧
    total (dataOf (demoChain [(100, 4294966784, false), (100, 512, false)])) = 2 ^ 32 :=
  ⟨demo_accepted 1 0 _ (by decide) (by simp), by rw [(demo_data _).2.1]; rfl⟩

/-- What is true of C40: in every reachable state a chain with less than 4 GiB of data does not panic the thread, unless
it is a "get device id" request without a buffer. -/
theorem C40_chain_partial (hbs : bs < 2 ^ 32) (h : Run dev (Vq.init mem n bs) es v) (head : Nat) (descs : List Desc)
    (hbig : total (dataOf descs) < 2 ^ 32)
    (hid : ∀ hd, descs.head? = some hd → headerType v.mem hd.addr = 8 → dataOf descs ≠ []) :
    processChain dev v head descs ≠ .panic := by
  have hI := run_inv hbs h
  unfold processChain
  simp only
  cases hp : parse v.mem descs with
  | error e => intro h; cases h
  | ok r =>
    have hA := (C37_parse_partial _ _ _).mp hp
    have hdat : r.data = dataOf descs := hA.data
    simp only
    cases ht : r.ty with
    | «in» =>
      simp only [processRead]
      split <;> intro h <;> cases h
    | flush => intro h; cases h
    | other => intro h; cases h
    | getId =>
      obtain ⟨hd, a1, _, _, a4, _⟩ := hA.header
      have h8 : headerType v.mem hd.addr = 8 := by
        rw [ht] at a4
        exact ofCode_getId a4.symm
      simp only [processGetId]
      cases hdd : r.data with
      | nil => exact absurd (hdat.symm.trans hdd) (hid hd a1 h8)
      | cons p ps =>
        obtain ⟨a, l⟩ := p
        simp only
        split <;> intro h <;> cases h
    | out =>
      simp only [processWrite]
      split
      · intro h; cases h
      cases hg : getSlot { v with popped := v.popped + 1 } (requestLen r) r ⟨v.popped, head, descs⟩ with
      | mk v1 id =>
        obtain ⟨buf, _, h2, h3, h4, _⟩ := getSlot_spec hg hI.small (Nat.mod_lt _ (by decide))
        simp only
        have hbuf : ((v1.slots[id]?).map Slot.buf).getD [] = buf := by rw [h4]; rfl
        rw [hbuf]
        cases hga : gather v1.mem r.data 0 buf false with
        | panic =>
          refine absurd hga (gather_total ?_)
          rw [requestLen_eq, hdat, Nat.mod_eq_of_lt hbig] at h2
          rw [hdat]; omega
        | ok p =>
          obtain ⟨b, f⟩ := p
          simp only
          split <;> intro h <;> cases h

/-- What is true of C40 at completion: if no chain carried 4 GiB or more, no report of the device panics the thread. -/
theorem C40_poll_partial (hbs : bs < 2 ^ 32) (h : Run dev (Vq.init mem n bs) es v) {id : Nat} {q : DevReq}
    (hi : v.inflight id = some q) (data : Bytes) (hd : q.filled data) (success : Bool)
    (hbig : ∀ uid head descs, VEv.popped uid head descs ∈ es → total (dataOf descs) < 2 ^ 32) :
    pollOne (devDone v id data) id success ≠ .panic := by
  have hI := run_inv hbs h
  obtain ⟨s, hs⟩ := hI.infl _ _ hi
  obtain ⟨_, _, c, m, r, ds, q', d, e, f, g, k, l⟩ := hI.slot _ s hs
  rw [hi] at k; obtain rfl := Option.some.inj k
  obtain ⟨s', hs', _, hfit⟩ := inv_poll hI id q hi
  rw [hs] at hs'; obtain rfl := Option.some.inj hs'
  have hA := (C37_parse_partial _ _ _).mp e
  have hlt := hbig _ _ _ d
  have hslot : (devDone v id data).slots[id]? = some { s with buf := data ++ s.buf.drop data.length } := by
    simp [devDone, (held_some.mp hs).1]
  unfold pollOne
  rw [hslot]
  simp only
  split
  · rename_i hc
    have hl := g.len (by rw [hc.1]; decide)
    rw [hA.data, Nat.mod_eq_of_lt hlt] at hl
    cases hsc : scatter (devDone v id data).mem s.data 0 (data ++ s.buf.drop data.length) with
    | panic =>
      refine absurd hsc (scatter_total ?_)
      have h1 := g.fits
      have h2 := hfit _ hd
      rw [g.data, hA.data]
      simp only [List.length_append, List.length_drop]
      omega
    | ok p => intro h; cases h
  · intro h; cases h

/-- C40 on a lazily fetched disk: a non-empty request inside the disk only looks at stripes the disk has. -/
theorem C40_stripes_partial (shift off cnt sectors : Nat) (hc : 0 < cnt) (hin : off + cnt ≤ sectors) (hs : sectors < 2 ^ 64) :
    ∀ k, (stripeRange shift off cnt).1 ≤ k → k ≤ (stripeRange shift off cnt).2 → k < (sectors + 2 ^ shift - 1) / 2 ^ shift := by
  intro k _ hk
  have hpos : 0 < 2 ^ shift := Nat.two_pow_pos shift
  simp only [stripeRange] at hk
  rw [show off + cnt + 2 ^ 64 - 1 = off + cnt - 1 + 2 ^ 64 by omega, Nat.add_mod_right, Nat.mod_eq_of_lt (by omega)] at hk
  apply Nat.lt_of_le_of_lt hk
  rw [Nat.div_lt_iff_lt_mul hpos]
  have := Nat.lt_div_mul_add hpos (a := sectors + 2 ^ shift - 1)
  omega

/-- C40 is false there: an empty request at sector 0 wraps around and looks at a stripe that no disk of fewer than
2^64 sectors has. -/
theorem C40_empty_request_out_of_range (shift sectors : Nat) (hsh : shift ≤ 16) (hs : sectors ≤ 2 ^ 63) :
    (sectors + 2 ^ shift - 1) / 2 ^ shift ≤ (stripeRange shift 0 0).2 := by
  simp only [stripeRange]
  apply Nat.div_le_div_right
  have : 2 ^ shift ≤ 2 ^ 16 := Nat.pow_le_pow_right (by decide) hsh
  omega

/-- So is a request beyond the end of the disk: nothing in the front end compares a request with the disk's size; every
sector is passed on. -/
theorem C40_sector_not_checked (sector : UInt8) :
    ∃ v', processChain [65] (Vq.init (demoMem0 0 sector) 1 512) 0 (demoChain [(1000, 512, true)])
      = .ok (v', [.dev 0 (.read sector.toNat 1)]) := by
  have h : parse (demoMem0 0 sector) (demoChain [(1000, 512, true)]) = .ok ⟨.in, [(1000, 512)], sector.toNat, 4000⟩ :=
    (C37_parse_partial _ _ _).mpr (demo_accepted 0 sector _ (fun h => by cases h) (by simp))
  unfold processChain
  simp only [Vq.init, h, processRead]
  rw [if_neg (show ¬requestLen ⟨.in, [(1000, 512)], sector.toNat, 4000⟩ % 512 ≠ 0 by simp [requestLen])]
  simp only [getSlot, findSlot, requestLen]
  simp only [List.replicate, List.findIdx?_cons, zeros_length]
  exact ⟨_, rfl⟩

/-! ## A run -/

/-- A guest reads sector 3 into address 1000; the disk delivers 512 bytes of value 9. The hypotheses of C38 and C39 are met
on the way, and the guest finds the data and a zero status byte. -/
theorem demo_read_run :
    ∃ (es : List VEv) (v : Vq), Run [65] (Vq.init (demoMem0 0 3) 1 512) es v ∧ returnedIds es = [0] ∧ (∀ i, v.inflight i = none) ∧
      v.mem.bytes 1000 = 9 ∧ v.mem.bytes 1511 = 9 ∧ v.mem.bytes 1512 = 7 ∧ v.mem.bytes 4000 = 0 ∧ v.pendingSignal = true := by
  obtain ⟨v1, h1⟩ := C40_sector_not_checked 3
  have hlen : ∀ d ∈ demoChain [(1000, 512, true)], d.len < 2 ^ 32 := by simp [demoChain]
  have r1 := Run.snoc (.nil _) (Step.pop _ _ 0 _ _ hlen h1)
  have hbs : (512 : Nat) < 2 ^ 32 := by decide
  have hsm := (inv_init (demoMem0 0 3) 1 512 hbs).small
  obtain ⟨_, hok, _, hE⟩ := chain_spec h1 hsm
  have hpl : places (dataOf (demoChain [(1000, 512, true)])) = span 1000 512 := by
    rw [(demo_data _).2.1]; simp [places]
  have hmem : v1.mem = demoMem0 0 3 ∧ v1.inflight = upd (fun _ => none) 0 (some (.read 3 1)) := by
    generalize hes : [VEv.dev 0 (DevReq.read (3 : UInt8).toNat 1)] = es1 at hE
    cases hE with
    | bad => cases hes
    | done => cases hes
    | hold r id q s _ _ _ hi _ _ hm _ =>
      simp only [List.cons.injEq, VEv.dev.injEq, and_true] at hes
      obtain ⟨rfl, rfl⟩ := hes
      exact ⟨hm, hi⟩
  have hi : v1.inflight 0 = some (.read 3 1) := by rw [hmem.2]; rfl
  have hd : (List.replicate 512 (9 : UInt8)).length = 1 * 512 := by simp
  cases hp : pollOne (devDone v1 0 (List.replicate 512 9)) 0 true with
  | panic =>
    refine absurd hp (C40_poll_partial hbs r1 hi _ hd true ?_)
    intro uid head descs hm
    simp only [List.nil_append, List.mem_cons, VEv.popped.injEq, reduceCtorEq, List.not_mem_nil, or_false] at hm
    rw [hm.2.2, (demo_data _).2.1]; decide
  | ok p =>
    obtain ⟨v2, es2⟩ := p
    have r2 := Run.snoc r1 (.poll _ _ 0 _ _ true _ hi hd hp)
    obtain ⟨uid, head, descs, sd, st, a1, a2, a3, a4, a5, a6, a7⟩ := C39_read hbs r1 hi hd hp
    simp only [List.nil_append, List.mem_cons, VEv.popped.injEq, reduceCtorEq, List.not_mem_nil, or_false] at a1
    obtain ⟨rfl, rfl, rfl⟩ := a1
    rw [(demo_data _).2.2] at a2
    obtain rfl := Option.some.inj a2
    rw [hpl] at a5 a6 a7
    rw [if_pos (by
      intro a ha
      rw [mem_span] at ha
      rw [hmem.1]; simp only [demoMem0, decide_eq_true_eq]; omega)] at a5
    obtain ⟨_, b2⟩ := a7 a5
    have b3 := b2 (span_nodup _ _)
    have hI := run_inv hbs r1
    obtain ⟨s, hs, hst, hfit⟩ := inv_poll hI 0 _ hi
    obtain ⟨_, hP⟩ := poll_spec hI.small hs hst (hfit _ hd) hp
    refine ⟨_, _, r2, ?_, ?_, ?_, ?_, ?_, ?_, hP.signal⟩
    · rw [a3, returnedIds_append]; rfl
    · intro i
      rw [hP.inflight, hmem.2]
      by_cases h0 : i = 0
      · rw [h0, upd_same]
      · rw [upd_ne _ _ h0, upd_ne _ _ h0]
    · rw [b3 0 1000 (span_getElem? _ _ _ (by decide)) (by decide)]; rfl
    · rw [b3 511 1511 (span_getElem? _ _ _ (by decide)) (by decide)]
      simp [List.getD_eq_getElem?_getD]
    · rw [a6 1512 (by decide) (by rw [mem_span]; omega), hmem.1]; rfl
    · exact a4.trans a5

/-- A guest writes 512 bytes at address 1000 to sector 3: the hypotheses of `C39_write` are met. -/
theorem demo_write_run :
    ∃ v' : Vq, processChain [65] (Vq.init (demoMem0 1 3) 1 512) 0 (demoChain [(1000, 512, false)])
      = .ok (v', [.dev 0 (.write 3 1 ((span 1000 512).map (demoMem0 1 3).bytes))]) := by
  have hp : parse (demoMem0 1 3) (demoChain [(1000, 512, false)]) = .ok ⟨.out, [(1000, 512)], 3, 4000⟩ :=
    (C37_parse_partial _ _ _).mpr (demo_accepted 1 3 _ (by decide) (by simp))
  unfold processChain
  simp only [Vq.init, hp, processWrite]
  have hl : requestLen ⟨.out, [(1000, 512)], 3, 4000⟩ = 512 := rfl
  simp only [hl]
  rw [if_neg (by decide)]
  simp only [getSlot, findSlot, List.replicate, List.findIdx?_cons, zeros_length]
  simp only [Bool.not_false, Bool.and_true, Nat.le_refl, decide_true, if_true, List.getElem?_cons_zero, Option.map_some, Option.getD_some,
    List.set_cons_zero]
  cases hg : gather (demoMem0 1 3) [(1000, 512)] 0 (zeros 512) false with
  | panic => exact absurd hg (gather_total (by simp [total]))
  | ok p =>
    obtain ⟨buf, f⟩ := p
    obtain ⟨_, _, g3, g4⟩ := gather_ok hg (Nat.zero_le _)
    have hf : f = false := g3.mpr ⟨rfl, by
      intro a ha
      simp only [places, List.flatMap_cons, List.flatMap_nil, List.append_nil, mem_span] at ha
      simp only [demoMem0, decide_eq_true_eq]; omega⟩
    have hb := g4 hf
    subst hf
    simp only [Bool.false_eq_true, if_false]
    have e : buf.take (512 / 512 * 512) = (span 1000 512).map (demoMem0 1 3).bytes := by
      rw [hb]
      simp only [places, List.flatMap_cons, List.flatMap_nil, List.append_nil, List.take_zero, List.nil_append]
      rw [List.take_append_of_le_length (by simp [span]), List.take_of_length_le (by simp [span])]
    rw [e]
    exact ⟨_, rfl⟩

/-! ## C56: the device id -/

theorem idBytes_length (dev : Bytes) : (idBytes dev).length = 20 := by
  simp only [idBytes, List.length_append, List.length_take, zeros_length]; omega

theorem idBytes_getD (dev : Bytes) (i : Nat) (hi : i < 20) : (idBytes dev).getD i 0 = dev.getD i 0 := by
  simp only [idBytes, List.getD_eq_getElem?_getD]
  by_cases h : i < dev.length
  · rw [List.getElem?_append_left (by simp; omega), List.getElem?_take, if_pos hi]
  · rw [List.getElem?_append_right (by simp; omega), List.getElem?_eq_none (l := dev) (by omega)]
    simp only [zeros, List.getElem?_replicate]
    split <;> rfl

/-- C56, for every chain, memory and device id: a get-id request whose first buffer has at least 20 mapped bytes is
answered at once with status OK; the buffer's first 20 bytes are the device id, cut or padded with zeros, and nothing else
but the status byte changes. -/
theorem C56_get_id (dev : Bytes) (v : Vq) (head : Nat) (descs : List Desc) (r : Request) (hd : Desc) (a l : Nat)
    (rest : List (Nat × Nat)) (hacc : Accepted v.mem descs r) (hh : descs.head? = some hd) (hty : headerType v.mem hd.addr = 8)
    (hdata : dataOf descs = (a, l) :: rest) (hl : 20 ≤ l) (hm : ∀ x ∈ span a 20, v.mem.ok x = true) (hs : r.status ∉ span a 20) :
    ∃ v', processChain dev v head descs = .ok (v', [.returned v.popped head (some S_OK)]) ∧
      (∀ i, i < 20 → v'.mem.bytes (a + i) = dev.getD i 0) ∧ v'.mem.bytes r.status = 0 ∧
      ∀ x, x ∉ span a 20 → x ≠ r.status → v'.mem.bytes x = v.mem.bytes x := by
  have hp := (C37_parse_partial v.mem descs r).mpr hacc
  obtain ⟨⟨h', hh', _, _, ht, _, _⟩, hda, _, d, _, _, _, hok, hst⟩ := hacc
  rw [hh] at hh'; obtain rfl := Option.some.inj hh'
  have ht8 : r.ty = .getId := by rw [ht, hty]; rfl
  have hlen := idBytes_length dev
  have hw2 : (v.mem.write a (idBytes dev)).2 = true := (write_done _ _ _).mpr (by rw [hlen]; exact hm)
  unfold processChain
  simp only [hp, ht8, processGetId, hda, hdata]
  rw [if_neg (by omega)]
  have hok' : (v.mem.write a (idBytes dev)).1.ok r.status = true := by rw [write_ok, hst]; exact hok
  simp only [complete, GMem.write, hok', if_true, hw2]
  refine ⟨_, rfl, ?_, upd_same _ _ _, ?_⟩
  · intro i hi
    have hne : a + i ≠ r.status := by rintro e; exact hs (by rw [← e, mem_span]; omega)
    simp only
    rw [upd_ne _ _ hne, write_inside _ _ _ hw2 i (by omega), idBytes_getD dev i hi]
  · intro x hx hne
    simp only
    rw [upd_ne _ _ hne, write_outside _ _ _ _ (by rw [hlen]; exact hx)]

/-- C56: a buffer of less than 20 bytes is not written; the request fails. -/
theorem C56_short_buffer (dev : Bytes) (v : Vq) (head : Nat) (descs : List Desc) (r : Request) (hd : Desc) (a l : Nat)
    (rest : List (Nat × Nat)) (hacc : Accepted v.mem descs r) (hh : descs.head? = some hd) (hty : headerType v.mem hd.addr = 8)
    (hdata : dataOf descs = (a, l) :: rest) (hl : l < 20) :
    ∃ v', processChain dev v head descs = .ok (v', [.returned v.popped head (some S_IOERR)]) ∧
      ∀ x, x ≠ r.status → v'.mem.bytes x = v.mem.bytes x := by
  have hp := (C37_parse_partial v.mem descs r).mpr hacc
  obtain ⟨⟨h', hh', _, _, ht, _, _⟩, hda, _, d, _, _, _, hok, hst⟩ := hacc
  rw [hh] at hh'; obtain rfl := Option.some.inj hh'
  have ht8 : r.ty = .getId := by rw [ht, hty]; rfl
  unfold processChain
  simp only [hp, ht8, processGetId, hda, hdata]
  rw [if_pos hl]
  have hok' : v.mem.ok r.status = true := by rw [hst]; exact hok
  simp only [complete, GMem.write, hok', if_true]
  refine ⟨_, rfl, ?_⟩
  intro x hne
  exact upd_ne _ _ hne

/-- The hypotheses are met: a 32-byte buffer at 1000. -/
example : ∃ (r : Request) (hd : Desc), Accepted (demoMem0 8 0) (demoChain [(1000, 32, true)]) r ∧
    (demoChain [(1000, 32, true)]).head? = some hd ∧ headerType (demoMem0 8 0) hd.addr = 8 ∧
    dataOf (demoChain [(1000, 32, true)]) = [(1000, 32)] ∧ (∀ x ∈ span 1000 20, (demoMem0 8 0).ok x = true) ∧
    r.status ∉ span 1000 20 := by
  obtain ⟨h1, h2, h3⟩ := demo_data [(1000, 32, true)]
  refine ⟨_, _, demo_accepted 8 0 [(1000, 32, true)] (by decide) (by decide), rfl, by decide, h2, ?_, ?_⟩
  · intro x hx; rw [mem_span] at hx; simp [demoMem0]; omega
  · rw [mem_span]; decide

end Verif.Vhost
