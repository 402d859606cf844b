import Verif.Proof.ArchiveFormat

/-! Invariants of the archiver. -/

set_option maxRecDepth 8000

namespace Verif.Archive
open Verif Verif.Crypt Verif.Disk

variable {c : Cfg} {s s' : St} {st0 : Name → Option Bytes}

/-- `o` is the object made of the buffer fetched for some stripe. -/
def Made (c : Cfg) (s : St) (o : Bytes) : Prop := ∃ id buf, s.got id = some buf ∧ makeObject c id buf = .ok (some o)

/-- Holds in every phase. -/
structure Base (c : Cfg) (st0 : Name → Option Bytes) (s : St) : Prop where
  nodup : s.log.Nodup
  putsNodup : (s.puts.map (·.1)).Nodup
  putsLog : ∀ n d x, (n, d, x) ∈ s.puts → n ∈ s.log
  executed : ∀ n d, (n, d, true) ∈ s.puts → s.store n = some d
  storeLog : ∀ n, n ∉ s.log → s.store n = st0 n
  mapPut : ∀ b x, (mappingName, b, x) ∈ s.puts → serializeMapping c.P (entries c.count s.hashes) c.hkey c.keys = .ok b

/-- The table of content hashes describes the buffers that were fetched. -/
def Hashed (c : Cfg) (s : St) : Prop :=
  ∀ id v, s.hashes id = some v → ∃ buf, s.got id = some buf ∧ buf.length = c.ssc * 512 ∧
    (v = .zero → makeObject c id buf = .ok none) ∧
    ∀ h, v = .obj h → ∃ o, makeObject c id buf = .ok (some o) ∧ c.P.sha o = h

/-- While stripes are being processed. -/
structure Running (c : Cfg) (s : St) : Prop where
  inflight : s.inflight = s.puts.length
  seen : ∀ n, n ∈ s.log ↔ n ∈ s.seen
  hashed : Hashed c s
  data : ∀ n d x, (n, d, x) ∈ s.puts → n = objectKey (c.P.sha d) ∧ Made c s d
  objs : ∀ n ∈ s.log, ∃ o, n = objectKey (c.P.sha o) ∧ Made c s o ∧ ((∃ x, (n, o, x) ∈ s.puts) ∨ s.store n = some o)
  logged : ∀ id h, s.hashes id = some (.obj h) → objectKey h ∈ s.log
  next : s.next ≤ c.count
  past : ∀ id, id < s.next → shouldArchive c id = .ok true → id ∈ s.fetching ∨ s.hashes id ≠ none
  future : ∀ id, s.next ≤ id → id ∉ s.fetching ∧ s.hashes id = none
  fetching : ∀ id, id ∈ s.fetching → shouldArchive c id = .ok true ∧ s.hashes id = none ∧ s.got id = none
  used : ∀ id, s.hashes id ≠ none → shouldArchive c id = .ok true
  gotHashed : ∀ id, s.got id ≠ none → s.hashes id ≠ none
  fnodup : s.fetching.Nodup
  pool : s.free + s.fetching.length = c.conc

/-- Once all stripes have been processed. -/
structure Complete (c : Cfg) (s : St) : Prop where
  hashed : Hashed c s
  stored : ∀ id h, s.hashes id = some (.obj h) → ∃ o, c.P.sha o = h ∧ Made c s o ∧ s.store (objectKey h) = some o
  names : ∀ n d x, (n, d, x) ∈ s.puts → n = metadataName ∨ n = mappingName
  all : ∀ id, id < c.count → (shouldArchive c id = .ok true ∨ shouldArchive c id = .ok false) ∧
    (shouldArchive c id = .ok true → s.hashes id ≠ none)
  used : ∀ id, s.hashes id ≠ none → id < c.count ∧ shouldArchive c id = .ok true

structure Inv (c : Cfg) (st0 : Name → Option Bytes) (s : St) : Prop where
  base : Base c st0 s
  running : s.phase = .running → Running c s ∧ ∀ id, id < s.next → shouldArchive c id = .ok true ∨ shouldArchive c id = .ok false
  complete : s.phase = .metaPut ∨ s.phase = .mapPut ∨ s.phase = .done ∨ mappingName ∈ s.log → Complete c s
  nomap : s.phase = .running ∨ s.phase = .metaPut → mappingName ∉ s.log
  metaPut : s.phase = .metaPut → ∃ m, archiveMeta c = .ok m ∧
    ∀ d x, (metadataName, d, x) ∈ s.puts → d = c.P.encMeta m
  metaDone : s.phase = .mapPut ∨ s.phase = .done → ∃ m, archiveMeta c = .ok m ∧
    s.store metadataName = some (c.P.encMeta m) ∧ ∀ d x, (metadataName, d, x) ∉ s.puts
  mapDone : s.phase = .done → ∃ b, serializeMapping c.P (entries c.count s.hashes) c.hkey c.keys = .ok b ∧
    s.store mappingName = some b ∧ s.puts = []
  single : s.phase = .metaPut ∨ s.phase = .mapPut → ∀ n d x, (n, d, x) ∈ s.puts →
    n = if s.phase = .metaPut then metadataName else mappingName

theorem init_inv (c : Cfg) (st0 : Name → Option Bytes) : Inv c st0 (St.init c st0) := by
  refine ⟨⟨?_, ?_, ?_, ?_, ?_, ?_⟩, fun _ => ⟨⟨?_, ?_, ?_, ?_, ?_, ?_, ?_, ?_, ?_, ?_, ?_, ?_, ?_, ?_⟩, ?_⟩, ?_, ?_, ?_, ?_, ?_, ?_⟩ <;>
    simp [St.init, Hashed]

/-! ### Small facts about the list of puts -/

theorem mem_mid {α} {a b : List α} {x y : α} : y ∈ a ++ x :: b ↔ y = x ∨ y ∈ a ++ b := by
  simp only [List.mem_append, List.mem_cons]
  constructor
  · rintro (h | h | h)
    · exact .inr (.inl h)
    · exact .inl h
    · exact .inr (.inr h)
  · rintro (h | h | h)
    · exact .inr (.inl h)
    · exact .inl h
    · exact .inr (.inr h)

theorem nodup_mid {a b : List (Name × Bytes × Bool)} {n : Name} {d : Bytes} {x : Bool}
    (h : ((a ++ (n, d, x) :: b).map (·.1)).Nodup) :
    ((a ++ b).map (·.1)).Nodup ∧ ∀ d' x', (n, d', x') ∉ a ++ b := by
  have hp : (a ++ (n, d, x) :: b).map (·.1) |>.Perm (n :: (a ++ b).map (·.1)) := by
    simp only [List.map_append, List.map_cons]
    exact List.perm_middle
  have := hp.nodup_iff.1 h
  rw [List.nodup_cons] at this
  refine ⟨this.2, fun d' x' hm => this.1 ?_⟩
  exact List.mem_map.2 ⟨_, hm, rfl⟩

theorem nodup_mid' {a b : List (Name × Bytes × Bool)} {n : Name} {d : Bytes} {x x' : Bool}
    (h : ((a ++ (n, d, x) :: b).map (·.1)).Nodup) : ((a ++ (n, d, x') :: b).map (·.1)).Nodup := by
  simpa using h

theorem Base.startPut (hb : Base c st0 s) {n : Name} {d : Bytes} (hn : n ∉ s.log)
    (hm : n = mappingName → serializeMapping c.P (entries c.count s.hashes) c.hkey c.keys = .ok d) :
    Base c st0 (s.startPut n d) := by
  refine ⟨?_, ?_, ?_, ?_, ?_, ?_⟩
  · simp only [St.startPut, List.nodup_append]
    refine ⟨hb.nodup, by simp, ?_⟩
    intro a ha b hb' e
    simp only [List.mem_singleton] at hb'
    subst hb'; subst e; exact hn ha
  · simp only [St.startPut, List.map_append, List.nodup_append]
    refine ⟨hb.putsNodup, by simp, ?_⟩
    intro a ha b hb' e
    simp only [List.map_cons, List.map_nil, List.mem_singleton] at hb'
    subst hb'; subst e
    obtain ⟨⟨n', d', x'⟩, h1, rfl⟩ := List.mem_map.1 ha
    exact hn (hb.putsLog _ _ _ h1)
  · intro n' d' x' h
    simp only [St.startPut, List.mem_append, List.mem_singleton, Prod.mk.injEq] at h ⊢
    rcases h with h | ⟨rfl, -⟩
    · exact .inl (hb.putsLog _ _ _ h)
    · exact .inr rfl
  · intro n' d' h
    simp only [St.startPut, List.mem_append, List.mem_singleton, Prod.mk.injEq] at h ⊢
    rcases h with h | ⟨-, -, h⟩
    · exact hb.executed _ _ h
    · simp at h
  · intro n' h
    simp only [St.startPut, List.mem_append, not_or] at h ⊢
    exact hb.storeLog _ h.1
  · intro b x h
    simp only [St.startPut, List.mem_append, List.mem_singleton, Prod.mk.injEq] at h ⊢
    rcases h with h | ⟨h1, rfl, -⟩
    · exact hb.mapPut _ _ h
    · exact hm h1.symm

theorem Base.congr (hb : Base c st0 s) (h1 : s'.log = s.log) (h2 : s'.puts = s.puts) (h3 : s'.store = s.store)
    (h4 : s'.hashes = s.hashes) : Base c st0 s' := by
  obtain ⟨a1, a2, a3, a4, a5, a6⟩ := hb
  exact ⟨h1 ▸ a1, h2 ▸ a2, by rw [h1, h2]; exact a3, by rw [h2, h3]; exact a4, by rw [h1, h3]; exact a5,
    by rw [h2, h4]; exact a6⟩

theorem Base.drop (hb : Base c st0 s) {a b : List (Name × Bytes × Bool)} {n : Name} {d : Bytes} {x : Bool}
    (h : s.puts = a ++ (n, d, x) :: b) : Base c st0 { s with puts := a ++ b } := by
  refine ⟨hb.nodup, ?_, ?_, ?_, hb.storeLog, ?_⟩
  · have := hb.putsNodup; rw [h] at this; exact (nodup_mid this).1
  · exact fun n' d' x' h' => hb.putsLog n' d' x' (by rw [h, mem_mid]; exact .inr h')
  · exact fun n' d' h' => hb.executed n' d' (by rw [h, mem_mid]; exact .inr h')
  · exact fun b' x' h' => hb.mapPut b' x' (by rw [h, mem_mid]; exact .inr h')

theorem Base.exec (hb : Base c st0 s) {a b : List (Name × Bytes × Bool)} {n : Name} {d : Bytes} {x : Bool}
    (h : s.puts = a ++ (n, d, x) :: b) :
    Base c st0 { s with puts := a ++ (n, d, true) :: b, store := upd s.store n (some d) } := by
  have hn := hb.putsNodup
  rw [h] at hn
  have hmem : (n, d, x) ∈ s.puts := by rw [h, mem_mid]; exact .inl rfl
  refine ⟨hb.nodup, nodup_mid' hn, ?_, ?_, ?_, ?_⟩
  · intro n' d' x' h'
    simp only [mem_mid, Prod.mk.injEq] at h'
    rcases h' with ⟨rfl, rfl, rfl⟩ | h'
    · exact hb.putsLog _ _ _ hmem
    · exact hb.putsLog n' d' x' (by rw [h, mem_mid]; exact .inr h')
  · intro n' d' h'
    simp only [mem_mid, Prod.mk.injEq] at h'
    rcases h' with ⟨rfl, rfl, -⟩ | h'
    · simp
    · have hne : n' ≠ n := fun e => (nodup_mid hn).2 d' true (e ▸ h')
      simp only [upd_ne _ _ hne]
      exact hb.executed n' d' (by rw [h, mem_mid]; exact .inr h')
  · intro n' h'
    have hne : n' ≠ n := by rintro rfl; exact h' (hb.putsLog _ _ _ hmem)
    simp only [upd_ne _ _ hne]
    exact hb.storeLog n' h'
  · intro b' x' h'
    simp only [mem_mid, Prod.mk.injEq] at h'
    rcases h' with ⟨h1, rfl, -⟩ | h'
    · exact hb.mapPut b' x (h1 ▸ hmem)
    · exact hb.mapPut b' x' (by rw [h, mem_mid]; exact .inr h')

/-! ### Failure -/

/-- A failed archiver keeps the facts that were established. -/
theorem Inv.fail (hi : Inv c st0 s) (hp : s.phase ≠ .failed) : Inv c st0 s.fail := by
  refine ⟨hi.base.congr rfl rfl rfl rfl, ?_, ?_, ?_, ?_, ?_, ?_, ?_⟩
  · simp [St.fail]
  · intro h
    simp only [St.fail, reduceCtorEq, false_or] at h
    have := hi.complete (.inr (.inr (.inr h)))
    exact ⟨this.hashed, this.stored, this.names, this.all, this.used⟩
  all_goals simp [St.fail]

theorem failed_inv (hb : Base c st0 s) (hp : s.phase = .failed) (hm : mappingName ∉ s.log) : Inv c st0 s := by
  refine ⟨hb, ?_, ?_, ?_, ?_, ?_, ?_, ?_⟩ <;> simp [hp, hm]

/-! ### Steps -/

theorem made_mono {s s' : St} {o : Bytes} (h : Made c s o) (hg : ∀ id buf, s.got id = some buf → s'.got id = some buf) :
    Made c s' o := by
  obtain ⟨id, buf, h1, h2⟩ := h
  exact ⟨id, buf, hg _ _ h1, h2⟩

/-- Facts about one processed stripe. -/
theorem upload_inv (hi : Inv c st0 s) (hr : s.phase = .running) {id : Nat} (hid : id ∈ s.fetching) {buf : Bytes}
    (hb : buf.length = c.ssc * 512) : Inv c st0 { upload c s id buf with got := upd s.got id (some buf) } := by
  obtain ⟨r, r'⟩ := hi.running hr
  have hnm := hi.nomap (.inl hr)
  obtain ⟨fa, fh, fg⟩ := r.fetching id hid
  have hgm : ∀ id' buf', s.got id' = some buf' → upd s.got id (some buf) id' = some buf' := by
    intro id' buf' h
    have : id' ≠ id := by rintro rfl; rw [fg] at h; simp at h
    rw [upd_ne _ _ this]; exact h
  have hlt : id < s.next := by
    rcases Nat.lt_or_ge id s.next with h | h
    · exact h
    · exact absurd hid (r.future id h).1
  have hpast : ∀ (m : Nat → Option Spec), (∀ j, j ≠ id → m j = s.hashes j) → m id ≠ none → ∀ j, j < s.next →
      shouldArchive c j = .ok true → j ∈ s.fetching.filter (· ≠ id) ∨ m j ≠ none := by
    intro m hm hmi j hj hs
    by_cases hji : j = id
    · subst hji; exact .inr hmi
    · rw [hm j hji]
      rcases r.past j hj hs with h | h
      · exact .inl (by simpa [hji] using h)
      · exact .inr h
  have hflen : (s.fetching.filter (· ≠ id)).length + 1 = s.fetching.length := by
    have h1 := List.length_eq_countP_add_countP (fun x => decide (x ≠ id)) (l := s.fetching)
    have h2 : s.fetching.countP (fun x => decide ¬(decide (x ≠ id) = true)) = 1 := by
      have : s.fetching.count id = 1 := by rw [r.fnodup.count, if_pos hid]
      rw [← this, List.count]
      apply List.countP_congr
      simp
    rw [List.countP_eq_length_filter] at h1
    omega
  unfold upload
  rw [if_neg (by simpa using hid)]
  simp only
  cases hmk : makeObject c id buf with
  | error e =>
    simp only
    exact failed_inv (hi.base.congr rfl rfl rfl rfl) rfl hnm
  | ok oo =>
    have hhashed : ∀ v : Spec, (v = .zero → makeObject c id buf = .ok none) →
        (∀ h, v = .obj h → ∃ o, makeObject c id buf = .ok (some o) ∧ c.P.sha o = h) →
        ∀ j w, upd s.hashes id (some v) j = some w → ∃ buf', upd s.got id (some buf) j = some buf' ∧ buf'.length = c.ssc * 512 ∧
        (w = .zero → makeObject c j buf' = .ok none) ∧
        ∀ h, w = .obj h → ∃ o, makeObject c j buf' = .ok (some o) ∧ c.P.sha o = h := by
      intro v h1 h2 j w hj
      by_cases hji : j = id
      · subst hji
        simp only [upd_same, Option.some.injEq] at hj
        subst hj
        exact ⟨buf, by simp, hb, h1, h2⟩
      · rw [upd_ne _ _ hji] at hj ⊢
        exact r.hashed j w hj
    have hfet : ∀ j, j ∈ s.fetching.filter (· ≠ id) → ∀ v, shouldArchive c j = .ok true ∧ upd s.hashes id v j = none ∧
        upd s.got id (some buf) j = none := by
      intro j hj v
      have hj : j ∈ s.fetching ∧ j ≠ id := by simpa using hj
      rw [upd_ne _ _ hj.2, upd_ne _ _ hj.2]
      exact r.fetching j hj.1
    have hfut : ∀ j v, s.next ≤ j → j ∉ s.fetching.filter (· ≠ id) ∧ upd s.hashes id v j = none := by
      intro j v hj
      have hji : j ≠ id := by omega
      rw [upd_ne _ _ hji]
      exact ⟨fun h => (r.future j hj).1 (List.mem_filter.1 h).1, (r.future j hj).2⟩
    have hused : ∀ j v, upd s.hashes id (some v) j ≠ none → shouldArchive c j = .ok true := by
      intro j v h
      by_cases hji : j = id
      · subst hji; exact fa
      · rw [upd_ne _ _ hji] at h; exact r.used j h
    have hgh : ∀ j v, upd s.got id (some buf) j ≠ none → upd s.hashes id (some v) j ≠ none := by
      intro j v h
      by_cases hji : j = id
      · subst hji; simp
      · rw [upd_ne _ _ hji] at h ⊢; exact r.gotHashed j h
    have hnomap : ∀ b x, (mappingName, b, x) ∉ s.puts := fun b x h => hnm (hi.base.putsLog _ _ _ h)
    cases oo with
    | none =>
      simp only
      refine ⟨?_, fun _ => ⟨⟨r.inflight, r.seen, ?_, ?_, ?_, ?_, r.next, ?_, ?_, ?_, ?_, ?_, ?_, ?_⟩, r'⟩, ?_, fun _ => hnm, ?_, ?_, ?_, ?_⟩
      · exact ⟨hi.base.nodup, hi.base.putsNodup, hi.base.putsLog, hi.base.executed, hi.base.storeLog,
          fun b x h => absurd h (hnomap b x)⟩
      · exact hhashed .zero (fun _ => hmk) (by simp)
      · exact fun n d x h => ⟨(r.data n d x h).1, made_mono (r.data n d x h).2 hgm⟩
      · intro n hn
        obtain ⟨o, h1, h2, h3⟩ := r.objs n hn
        exact ⟨o, h1, made_mono h2 hgm, h3⟩
      · intro j h hj
        have hji : j ≠ id := by rintro rfl; simp at hj
        simp only [upd_ne _ _ hji] at hj
        exact r.logged j h hj
      · exact hpast _ (fun j hj => upd_ne _ _ hj) (by simp)
      · exact fun j hj => hfut j _ hj
      · exact fun j hj => hfet j hj _
      · exact fun j hj => hused j _ hj
      · exact fun j hj => hgh j _ hj
      · exact r.fnodup.filter _
      · have := r.pool; simp only; omega
      · intro h; simp [hr, hnm] at h
      all_goals simp [hr]
    | some o =>
      simp only
      have hhh := hhashed (.obj (c.P.sha o)) (by simp) (fun h e => ⟨o, hmk, by simpa using e⟩)
      have hmade : ∀ s1 : St, s1.got = upd s.got id (some buf) → Made c s1 o := by
        intro s1 e; exact ⟨id, buf, by rw [e]; simp, hmk⟩
      split
      · rename_i hseen
        have hlog : objectKey (c.P.sha o) ∈ s.log := (r.seen _).2 hseen
        refine ⟨?_, fun _ => ⟨⟨r.inflight, r.seen, hhh, ?_, ?_, ?_, r.next, ?_, ?_, ?_, ?_, ?_, ?_, ?_⟩, r'⟩, ?_, fun _ => hnm, ?_, ?_, ?_, ?_⟩
        · exact ⟨hi.base.nodup, hi.base.putsNodup, hi.base.putsLog, hi.base.executed, hi.base.storeLog,
            fun b x h => absurd h (hnomap b x)⟩
        · exact fun n d x h => ⟨(r.data n d x h).1, made_mono (r.data n d x h).2 hgm⟩
        · intro n hn
          obtain ⟨o, h1, h2, h3⟩ := r.objs n hn
          exact ⟨o, h1, made_mono h2 hgm, h3⟩
        · intro j h hj
          by_cases hji : j = id
          · subst hji
            simp only [upd_same, Option.some.injEq, Spec.obj.injEq] at hj
            subst hj; exact hlog
          · simp only [upd_ne _ _ hji] at hj
            exact r.logged j h hj
        · exact hpast _ (fun j hj => upd_ne _ _ hj) (by simp)
        · exact fun j hj => hfut j _ hj
        · exact fun j hj => hfet j hj _
        · exact fun j hj => hused j _ hj
        · exact fun j hj => hgh j _ hj
        · exact r.fnodup.filter _
        · have := r.pool; simp only; omega
        · intro h; simp [hr, hnm] at h
        all_goals simp [hr]
      · rename_i hseen
        have hlog : objectKey (c.P.sha o) ∉ s.log := fun h => hseen ((r.seen _).1 h)
        have hne1 := objectKey_ne_mapping (c.P.sha o)
        refine ⟨?_, fun _ => ⟨⟨?_, ?_, hhh, ?_, ?_, ?_, r.next, ?_, ?_, ?_, ?_, ?_, ?_, ?_⟩, r'⟩, ?_, ?_, ?_, ?_, ?_, ?_⟩
        · have hb0 : Base c st0 { s with hashes := upd s.hashes id (some (.obj (c.P.sha o))) } :=
            ⟨hi.base.nodup, hi.base.putsNodup, hi.base.putsLog, hi.base.executed, hi.base.storeLog,
              fun b x h => absurd h (hnomap b x)⟩
          exact (hb0.startPut hlog (fun e => absurd e hne1)).congr rfl rfl rfl rfl
        · simp [St.startPut, r.inflight]
        · intro n
          simp only [St.startPut, List.mem_append, List.mem_cons, List.not_mem_nil, or_false, r.seen]
          exact or_comm
        · intro n d x h
          simp only [St.startPut, List.mem_append, List.mem_singleton, Prod.mk.injEq] at h
          rcases h with h | ⟨rfl, rfl, -⟩
          · exact ⟨(r.data n d x h).1, made_mono (r.data n d x h).2 hgm⟩
          · exact ⟨rfl, hmade _ rfl⟩
        · intro n hn
          simp only [St.startPut, List.mem_append, List.mem_singleton] at hn
          rcases hn with hn | rfl
          · obtain ⟨o, h1, h2, h3⟩ := r.objs n hn
            refine ⟨o, h1, made_mono h2 hgm, ?_⟩
            rcases h3 with ⟨x, h3⟩ | h3
            · exact .inl ⟨x, List.mem_append_left _ h3⟩
            · exact .inr h3
          · exact ⟨o, rfl, hmade _ rfl, .inl ⟨false, by simp [St.startPut]⟩⟩
        · intro j h hj
          simp only [St.startPut] at hj ⊢
          by_cases hji : j = id
          · subst hji
            simp only [upd_same, Option.some.injEq, Spec.obj.injEq] at hj
            subst hj; simp
          · simp only [upd_ne _ _ hji] at hj
            exact List.mem_append_left _ (r.logged j h hj)
        · exact hpast (upd s.hashes id (some (.obj (c.P.sha o)))) (fun j hj => upd_ne _ _ hj) (by simp)
        · exact fun j hj => hfut j _ hj
        · exact fun j hj => hfet j hj _
        · exact fun j hj => hused j _ hj
        · exact fun j hj => hgh j _ hj
        · exact r.fnodup.filter _
        · have := r.pool; simp only [St.startPut]; omega
        · intro h; simp [St.startPut, hr, hnm, Ne.symm hne1] at h
        · intro _; simp [St.startPut, hnm, Ne.symm hne1]
        all_goals simp [St.startPut, hr]

theorem Running.exec (r : Running c s) (hb : Base c st0 s) {a b : List (Name × Bytes × Bool)} {n : Name} {d : Bytes} {x : Bool}
    (h : s.puts = a ++ (n, d, x) :: b) :
    Running c { s with puts := a ++ (n, d, true) :: b, store := upd s.store n (some d) } := by
  have hmem : (n, d, x) ∈ s.puts := by rw [h, mem_mid]; exact .inl rfl
  refine ⟨?_, r.seen, r.hashed, ?_, ?_, r.logged, r.next, r.past, r.future, r.fetching, r.used, r.gotHashed, r.fnodup, r.pool⟩
  · rw [r.inflight, h]; simp
  · intro n' d' x' h'
    simp only [mem_mid, Prod.mk.injEq] at h'
    rcases h' with ⟨rfl, rfl, rfl⟩ | h'
    · exact r.data _ _ _ hmem
    · exact r.data n' d' x' (by rw [h, mem_mid]; exact .inr h')
  · intro n' hn'
    by_cases hne : n' = n
    · subst hne
      obtain ⟨h1, h2⟩ := r.data _ _ _ hmem
      exact ⟨d, h1, h2, .inr (by simp)⟩
    · obtain ⟨o, h1, h2, h3⟩ := r.objs n' hn'
      refine ⟨o, h1, h2, ?_⟩
      rcases h3 with ⟨x', h3⟩ | h3
      · left
        rw [h, mem_mid] at h3
        rcases h3 with h3 | h3
        · simp only [Prod.mk.injEq] at h3; exact absurd h3.1 hne
        · exact ⟨x', by simp only [mem_mid]; exact .inr h3⟩
      · exact .inr (by simp only [upd_ne _ _ hne]; exact h3)

theorem Complete.exec (r : Complete c s) {a b : List (Name × Bytes × Bool)} {n : Name} {d : Bytes} {x : Bool}
    (h : s.puts = a ++ (n, d, x) :: b) :
    Complete c { s with puts := a ++ (n, d, true) :: b, store := upd s.store n (some d) } := by
  have hmem : (n, d, x) ∈ s.puts := by rw [h, mem_mid]; exact .inl rfl
  refine ⟨r.hashed, ?_, ?_, r.all, r.used⟩
  · intro id hh hid
    obtain ⟨o, h1, h2, h3⟩ := r.stored id hh hid
    refine ⟨o, h1, h2, ?_⟩
    have : objectKey hh ≠ n := by
      rintro rfl
      rcases r.names _ _ _ hmem with e | e
      · exact objectKey_ne_metadata _ e
      · exact objectKey_ne_mapping _ e
    simp only [upd_ne _ _ this]; exact h3
  · intro n' d' x' h'
    simp only [mem_mid, Prod.mk.injEq] at h'
    rcases h' with ⟨rfl, rfl, rfl⟩ | h'
    · exact r.names _ _ _ hmem
    · exact r.names n' d' x' (by rw [h, mem_mid]; exact .inr h')

theorem Complete.drop (r : Complete c s) {a b : List (Name × Bytes × Bool)} {n : Name} {d : Bytes} {x : Bool}
    (h : s.puts = a ++ (n, d, x) :: b) : Complete c { s with puts := a ++ b } :=
  ⟨r.hashed, r.stored, fun n' d' x' h' => r.names n' d' x' (by rw [h, mem_mid]; exact .inr h'), r.all, r.used⟩

theorem Complete.startPut (r : Complete c s) {n : Name} {d : Bytes} (p : Phase) (hn : n = metadataName ∨ n = mappingName) :
    Complete c ({ s with phase := p }.startPut n d) := by
  refine ⟨r.hashed, r.stored, ?_, r.all, r.used⟩
  intro n' d' x' h'
  simp only [St.startPut, List.mem_append, List.mem_singleton, Prod.mk.injEq] at h'
  rcases h' with h' | ⟨rfl, -⟩
  · exact r.names _ _ _ h'
  · exact hn

theorem step_inv {l : Lab} (hi : Inv c st0 s) (h : Step c s l s') : Inv c st0 s' := by
  cases h with
  | skip hr hn h =>
    obtain ⟨r, r'⟩ := hi.running hr
    refine ⟨hi.base.congr rfl rfl rfl rfl, fun _ => ⟨⟨r.inflight, r.seen, r.hashed, r.data, r.objs, r.logged, hn, ?_, ?_, r.fetching, r.used,
      r.gotHashed, r.fnodup, r.pool⟩, ?_⟩, ?_, hi.nomap, ?_, ?_, ?_, ?_⟩
    · intro id hid hs
      by_cases he : id = s.next
      · subst he; rw [h] at hs; simp at hs
      · exact r.past id (by simp only at hid; omega) hs
    · intro id hid; exact r.future id (by simp only at hid; omega)
    · intro id hid
      by_cases he : id = s.next
      · subst he; exact .inr h
      · exact r' id (by simp only at hid; omega)
    · intro h'; exact absurd (hi.nomap (.inl hr)) (by simpa [hr] using h')
    all_goals simp [hr]
  | panic hr hn e h => exact hi.fail (by simp [hr])
  | start hr hn h hf submitOk =>
    obtain ⟨r, r'⟩ := hi.running hr
    cases submitOk with
    | false => exact hi.fail (by simp [hr])
    | true =>
      simp only [if_true]
      obtain ⟨f1, f2⟩ := r.future s.next (Nat.le_refl _)
      have hg : s.got s.next = none := by
        cases hg : s.got s.next with
        | none => rfl
        | some b => exact absurd f2 (r.gotHashed _ (by simp [hg]))
      refine ⟨hi.base.congr rfl rfl rfl rfl, fun _ => ⟨⟨r.inflight, r.seen, r.hashed, r.data, r.objs, r.logged, hn, ?_, ?_, ?_, r.used,
        r.gotHashed, ?_, ?_⟩, ?_⟩, ?_, hi.nomap, ?_, ?_, ?_, ?_⟩
      · intro id hid hs
        by_cases he : id = s.next
        · subst he; exact .inl (by simp)
        · rcases r.past id (by simp only at hid; omega) hs with h | h
          · exact .inl (List.mem_cons_of_mem _ h)
          · exact .inr h
      · intro id hid
        simp only at hid
        obtain ⟨g1, g2⟩ := r.future id (by omega)
        refine ⟨?_, g2⟩
        simp only [List.mem_cons, not_or]
        exact ⟨by omega, g1⟩
      · intro id hid
        simp only [List.mem_cons] at hid
        rcases hid with rfl | hid
        · exact ⟨h, f2, hg⟩
        · exact r.fetching id hid
      · exact List.nodup_cons.2 ⟨f1, r.fnodup⟩
      · have := r.pool; simp only [List.length_cons]; omega
      · intro id hid
        by_cases he : id = s.next
        · subst he; exact .inl h
        · exact r' id (by simp only at hid; omega)
      · intro h'; exact absurd (hi.nomap (.inl hr)) (by simpa [hr] using h')
      all_goals simp [hr]
  | fetchDone hr id hid ok buf hb =>
    cases ok with
    | false => exact hi.fail (by simp [hr])
    | true => simp only [if_true]; exact upload_inv hi hr hid hb
  | exec a b n d x h =>
    have hmem : (n, d, x) ∈ s.puts := by rw [h, mem_mid]; exact .inl rfl
    refine ⟨hi.base.exec h, fun hr => ⟨(hi.running hr).1.exec hi.base h, (hi.running hr).2⟩, fun hr => (hi.complete hr).exec h, hi.nomap, ?_, ?_, ?_, ?_⟩
    · intro hr
      obtain ⟨m, h1, h2⟩ := hi.metaPut hr
      refine ⟨m, h1, fun d' x' h' => ?_⟩
      simp only [mem_mid, Prod.mk.injEq] at h'
      rcases h' with ⟨e, rfl, rfl⟩ | h'
      · exact h2 _ x (e ▸ hmem)
      · exact h2 d' x' (by rw [h, mem_mid]; exact .inr h')
    · intro hr
      obtain ⟨m, h1, h2, h3⟩ := hi.metaDone hr
      have hne : metadataName ≠ n := fun e => h3 d x (e ▸ hmem)
      refine ⟨m, h1, by simp only [upd_ne _ _ hne]; exact h2, fun d' x' h' => ?_⟩
      simp only [mem_mid, Prod.mk.injEq] at h'
      rcases h' with ⟨e, -⟩ | h'
      · exact hne e
      · exact h3 d' x' (by rw [h, mem_mid]; exact .inr h')
    · intro hr
      obtain ⟨b', -, -, h3⟩ := hi.mapDone hr
      rw [h3] at h; simp at h
    · intro hr n' d' x' h'
      simp only [mem_mid, Prod.mk.injEq] at h'
      rcases h' with ⟨rfl, rfl, rfl⟩ | h'
      · exact hi.single hr _ _ _ hmem
      · exact hi.single hr n' d' x' (by rw [h, mem_mid]; exact .inr h')
  | putDone hr a b n d x ok h hx =>
    obtain ⟨r, r'⟩ := hi.running hr
    have hnm := hi.nomap (.inl hr)
    have hmem : (n, d, x) ∈ s.puts := by rw [h, mem_mid]; exact .inl rfl
    split
    · rename_i hok
      simp only [Bool.and_eq_true, decide_eq_true_eq] at hok
      have hxt := hx hok.1
      subst hxt
      refine ⟨(hi.base.drop h).congr rfl rfl rfl rfl, fun _ => ⟨⟨?_, r.seen, r.hashed, ?_, ?_, r.logged, r.next, r.past, r.future, r.fetching, r.used,
        r.gotHashed, r.fnodup, r.pool⟩, r'⟩, ?_, fun _ => hnm, ?_, ?_, ?_, ?_⟩
      · have := r.inflight; rw [h] at this; simp at this ⊢; omega
      · exact fun n' d' x' h' => r.data n' d' x' (by rw [h, mem_mid]; exact .inr h')
      · intro n' hn'
        obtain ⟨o, h1, h2, h3⟩ := r.objs n' hn'
        rcases h3 with ⟨x', h3⟩ | h3
        · rw [h, mem_mid] at h3
          rcases h3 with h3 | h3
          · simp only [Prod.mk.injEq] at h3
            obtain ⟨rfl, rfl, -⟩ := h3
            exact ⟨o, h1, h2, .inr (hi.base.executed _ _ hmem)⟩
          · exact ⟨o, h1, h2, .inl ⟨x', h3⟩⟩
        · exact ⟨o, h1, h2, .inr h3⟩
      · intro h'; exact absurd hnm (by simpa [hr] using h')
      all_goals simp [hr]
    · exact failed_inv ((hi.base.drop h).congr rfl rfl rfl rfl) rfl hnm
  | finish hr hn hf hi0 =>
    obtain ⟨r, r'⟩ := hi.running hr
    have hnm := hi.nomap (.inl hr)
    have hputs : s.puts = [] := by
      have := r.inflight; rw [hi0] at this; exact List.length_eq_zero_iff.1 this.symm
    have hcomp : Complete c s := by
      refine ⟨r.hashed, ?_, by simp [hputs], ?_, ?_⟩
      · intro id hh hid
        obtain ⟨o, h1, h2, h3⟩ := r.objs _ (r.logged id hh hid)
        have := objectKey_inj h1
        subst this
        refine ⟨o, rfl, h2, ?_⟩
        rcases h3 with ⟨x, h3⟩ | h3
        · rw [hputs] at h3; simp at h3
        · exact h3
      · intro id hid
        refine ⟨r' id (by omega), fun hs => ?_⟩
        rcases r.past id (by omega) hs with h | h
        · rw [hf] at h; simp at h
        · exact h
      · intro id hid
        refine ⟨?_, r.used id hid⟩
        rcases Nat.lt_or_ge id s.next with h | h
        · omega
        · exact absurd (r.future id h).2 hid
    have hmn : metadataName ∉ s.log := by
      intro h
      obtain ⟨o, h1, -⟩ := r.objs _ h
      exact objectKey_ne_metadata _ h1.symm
    unfold finish
    split
    · exact hi.fail (by simp [hr])
    · split
      · exact hi.fail (by simp [hr])
      · rename_i m hm
        refine ⟨?_, by simp [St.startPut], fun _ => hcomp.startPut _ (.inl rfl), fun _ => ?_, fun _ => ⟨m, hm, ?_⟩, ?_, ?_, ?_⟩
        · exact Base.startPut (s := { s with phase := .metaPut }) (hi.base.congr rfl rfl rfl rfl) hmn
            (fun e => absurd e metadata_ne_mapping)
        · simp only [St.startPut, List.mem_append, List.mem_singleton, not_or]
          exact ⟨hnm, Ne.symm metadata_ne_mapping⟩
        · intro d x h; simp [St.startPut, hputs] at h; exact h.1
        · simp [St.startPut]
        · simp [St.startPut]
        · intro _ n d x h; simp [St.startPut, hputs] at h ⊢; exact h.1
  | metaDone hr a b d x ok h hx =>
    have hmem : (metadataName, d, x) ∈ s.puts := by rw [h, mem_mid]; exact .inl rfl
    have hnm := hi.nomap (.inr hr)
    have hcomp := hi.complete (.inl hr)
    cases ok with
    | false => exact failed_inv ((hi.base.drop h).congr rfl rfl rfl rfl) rfl hnm
    | true =>
      have hxt := hx rfl
      subst hxt
      simp only [if_true]
      obtain ⟨m, hm1, hm2⟩ := hi.metaPut hr
      have hd := hm2 _ _ hmem
      subst hd
      have hst := hi.base.executed _ _ hmem
      have hnd := hi.base.putsNodup
      rw [h] at hnd
      have hab : a ++ b = [] := by
        have hs := hi.single (.inl hr)
        rw [if_pos hr] at hs
        rcases hab : a ++ b with _ | ⟨⟨n, d', x'⟩, t⟩
        · rfl
        · exfalso
          have hmem' : (n, d', x') ∈ a ++ b := by rw [hab]; simp
          have e := hs n d' x' (by rw [h, mem_mid]; exact .inr hmem')
          rw [e] at hmem'
          exact (nodup_mid hnd).2 d' x' hmem'
      unfold publish
      split
      · exact failed_inv ((hi.base.drop h).congr rfl rfl rfl rfl) rfl hnm
      · rename_i bytes hser
        refine ⟨?_, by simp [St.startPut], fun _ => ?_, by simp [St.startPut], by simp [St.startPut], fun _ => ⟨m, hm1, hst, ?_⟩, by simp [St.startPut], ?_⟩
        · exact Base.startPut (s := { s with phase := .mapPut, puts := a ++ b }) ((hi.base.drop h).congr rfl rfl rfl rfl) hnm (fun _ => hser)
        · exact (hcomp.drop h).startPut _ (.inr rfl)
        · intro d' x' h'
          simp [St.startPut, hab] at h'
          exact metadata_ne_mapping h'.1
        · intro _ n d' x' h'; simp [St.startPut, hab] at h' ⊢; exact h'.1
  | mapDone hr a b d x ok h hx =>
    have hmem : (mappingName, d, x) ∈ s.puts := by rw [h, mem_mid]; exact .inl rfl
    have hcomp := hi.complete (.inr (.inl hr))
    cases ok with
    | false =>
      have hb : Base c st0 { s with puts := a ++ b }.fail := (hi.base.drop h).congr rfl rfl rfl rfl
      have hc := hcomp.drop h
      refine ⟨hb, by simp [St.fail], fun _ => ⟨hc.hashed, hc.stored, hc.names, hc.all, hc.used⟩, ?_, ?_, ?_, ?_, ?_⟩ <;> simp [St.fail]
    | true =>
      have hxt := hx rfl
      subst hxt
      simp only [if_true]
      obtain ⟨m, hm1, hm2, hm3⟩ := hi.metaDone (.inl hr)
      have hnd := hi.base.putsNodup
      rw [h] at hnd
      have hab : a ++ b = [] := by
        have hs := hi.single (.inr hr)
        rw [if_neg (by simp [hr])] at hs
        rcases hab : a ++ b with _ | ⟨⟨n, d', x'⟩, t⟩
        · rfl
        · exfalso
          have hmem' : (n, d', x') ∈ a ++ b := by rw [hab]; simp
          have e := hs n d' x' (by rw [h, mem_mid]; exact .inr hmem')
          rw [e] at hmem'
          exact (nodup_mid hnd).2 d' x' hmem'
      have hc := hcomp.drop h
      refine ⟨(hi.base.drop h).congr rfl rfl rfl rfl, by simp, fun _ => ⟨hc.hashed, hc.stored, hc.names, hc.all, hc.used⟩, by simp, by simp, fun _ => ⟨m, hm1, hm2, ?_⟩,
        fun _ => ⟨d, hi.base.mapPut d true hmem, hi.base.executed _ _ hmem, hab⟩, by simp⟩
      intro d' x' h'; simp only [hab] at h'; simp at h'
  | timeout hr => exact hi.fail (by rcases hr with hr | hr <;> simp [hr])

theorem run_inv {ls : List Lab} (h : Run c (St.init c st0) ls s) : Inv c st0 s := by
  induction h with
  | nil => exact init_inv c st0
  | snoc _ h2 ih => exact step_inv ih h2

/-! ### Aborting -/

/-- The archiver stopped before publishing an index. -/
def Aborted (s : St) : Prop := s.phase = .failed ∧ mappingName ∉ s.log

theorem step_aborted {l : Lab} (h : Step c s l s') (ha : Aborted s) : Aborted s' := by
  obtain ⟨h1, h2⟩ := ha
  cases h with
  | exec a b n d x h => exact ⟨h1, h2⟩
  | timeout hr => simp [h1] at hr
  | _ => simp_all

end Verif.Archive
