import Verif.Model.ArchiveSize
import Verif.Proof.ArchiveDemo

/-! # C91: the archive command reports the size of the archive and whether it is there

The sizes are right (`C91_physical`, `C91_report`) and success means that the archive is complete. The converse is false:
with `--stats` the command fails after the archive is complete when the statistics cannot be written
(`C91_false_exit`). -/

set_option maxRecDepth 8000

namespace Verif.Archive
open Verif Verif.Crypt Verif.Disk

variable {c : Cfg} {s s' : St} {st0 : Name → Option Bytes}

theorem SRun.run {s0 : St} {ls : List Lab} {p : Nat} (h : SRun c s0 ls s p) : Run c s0 ls s := by
  induction h with
  | nil => exact .nil _
  | snoc _ h2 ih => exact .snoc ih h2

theorem Run.sized {s0 : St} {ls : List Lab} (h : Run c s0 ls s) : ∃ p, SRun c s0 ls s p := by
  induction h with
  | nil => exact ⟨0, .nil⟩
  | snoc _ h2 ih => obtain ⟨p, ih⟩ := ih; exact ⟨_, .snoc ih h2⟩

/-- The total length of some objects. -/
def total (l : List (Name × Bytes)) : Nat := (l.map fun nd => nd.2.length).sum

/-- The objects put so far, of which the last is not counted while the put of a part of the manifest is under way. -/
def counted (s : St) (l : List (Name × Bytes)) : List (Name × Bytes) :=
  if s.phase = .metaPut ∨ s.phase = .mapPut then l.dropLast else l

/-- A name the archive uses. -/
def Used (s : St) (n : Name) : Prop := n = metadataName ∨ n = mappingName ∨ ∃ id h, s.hashes id = some (.obj h) ∧ n = objectKey h

structure Sizes (c : Cfg) (s : St) (p : Nat) (l : List (Name × Bytes)) : Prop where
  names : l.map (·.1) = s.log
  where_ : s.phase ≠ .failed → ∀ nd ∈ l, (∃ x, (nd.1, nd.2, x) ∈ s.puts) ∨ s.store nd.1 = some nd.2
  puts : ∀ n d x, (n, d, x) ∈ s.puts → (n, d) ∈ l
  used : ∀ n ∈ s.log, Used s n
  logged : ∀ id h, s.hashes id = some (.obj h) → objectKey h ∈ s.log
  sum : s.phase ≠ .failed → p = min (total (counted s l)) (2 ^ 64 - 1)
  metaPut : s.phase = .metaPut → ∃ m, archiveMeta c = .ok m ∧ l.getLast? = some (metadataName, c.P.encMeta m)
  mapPut : s.phase = .mapPut → ∃ b, serializeMapping c.P (entries c.count s.hashes) c.hkey c.keys = .ok b ∧
    l.getLast? = some (mappingName, b)
  both : s.phase = .done → metadataName ∈ s.log ∧ mappingName ∈ s.log
  first : s.phase = .metaPut ∨ s.phase = .mapPut → metadataName ∈ s.log

theorem total_append (a b : List (Name × Bytes)) : total (a ++ b) = total a + total b := by simp [total]

theorem sat_sat {a b : Nat} : Shell.satAdd (min a (2 ^ 64 - 1)) b = min (a + b) (2 ^ 64 - 1) := by
  unfold Shell.satAdd; omega

theorem Sizes.fail {p q : Nat} {l : List (Name × Bytes)} (h : Sizes c s p l) : Sizes c s.fail q l where
  names := h.names
  where_ hf := absurd rfl hf
  puts := h.puts
  used := h.used
  logged := h.logged
  sum hf := absurd rfl hf
  metaPut hm := by cases hm
  mapPut hm := by cases hm
  both hm := by cases hm
  first hm := by rcases hm with hm | hm <;> cases hm

/-- The name and the data of an object that is put determine each other. -/
theorem Sizes.unique {p : Nat} {l : List (Name × Bytes)} (h : Sizes c s p l) (hn : s.log.Nodup) {n : Name} {d d' : Bytes}
    (h1 : (n, d) ∈ l) (h2 : (n, d') ∈ l) : d = d' := by
  have := h.names ▸ hn
  clear h hn
  induction l with
  | nil => simp at h1
  | cons x l ih =>
    rw [List.map_cons, List.nodup_cons] at this
    rcases List.mem_cons.mp h1 with rfl | h1'
    · rcases List.mem_cons.mp h2 with h2 | h2
      · cases h2; rfl
      · exact absurd (List.mem_map.mpr ⟨_, h2, rfl⟩) this.1
    · rcases List.mem_cons.mp h2 with rfl | h2
      · exact absurd (List.mem_map.mpr ⟨_, h1', rfl⟩) this.1
      · exact ih h1' h2 this.2

/-- A put is over: the object is in the store, or the archiver gives up and the sum no longer matters. -/
theorem Sizes.drop {p : Nat} {l : List (Name × Bytes)} (h : Sizes c s p l) {a b : List (Name × Bytes × Bool)} {n : Name} {d : Bytes} {x : Bool}
    (hp : s.puts = a ++ (n, d, x) :: b) (hs : s.store n = some d) : Sizes c { s with puts := a ++ b } p l where
  names := h.names
  where_ hf nd hm := by
    rcases h.where_ hf nd hm with ⟨y, hy⟩ | hy
    · rw [hp] at hy
      rcases mem_mid.mp hy with e | hy
      · cases e; exact .inr hs
      · exact .inl ⟨y, hy⟩
    · exact .inr hy
  puts n' d' x' hm := h.puts n' d' x' (by rw [hp]; exact mem_mid.mpr (.inr hm))
  used := h.used
  logged := h.logged
  sum := h.sum
  metaPut := h.metaPut
  mapPut := h.mapPut
  both := h.both
  first := h.first

/-- An object is handed to the store. -/
theorem startPut_names {p : Nat} {l : List (Name × Bytes)} (h : Sizes c s p l) (hf : s.phase ≠ .failed) (n : Name) (d : Bytes) :
    (l ++ [(n, d)]).map (·.1) = (s.startPut n d).log ∧
    (∀ nd ∈ l ++ [(n, d)], (∃ x, (nd.1, nd.2, x) ∈ (s.startPut n d).puts) ∨ (s.startPut n d).store nd.1 = some nd.2) ∧
    ∀ n' d' x, (n', d', x) ∈ (s.startPut n d).puts → (n', d') ∈ l ++ [(n, d)] := by
  refine ⟨by simp [St.startPut, h.names], fun nd hm => ?_, fun n' d' x hm => ?_⟩
  · rcases List.mem_append.mp hm with hm | hm
    · rcases h.where_ hf nd hm with ⟨x, hx⟩ | hx
      · exact .inl ⟨x, List.mem_append_left _ hx⟩
      · exact .inr hx
    · rw [List.mem_singleton.mp hm]
      exact .inl ⟨false, List.mem_append_right _ (by simp)⟩
  · rcases List.mem_append.mp hm with hm | hm
    · exact List.mem_append_left _ (h.puts _ _ _ hm)
    · cases List.mem_singleton.mp hm
      exact List.mem_append_right _ (by simp)

theorem step_sizes {l : Lab} {p : Nat} {sz : List (Name × Bytes)} (hi : Inv c st0 s) (hs : Sizes c s p sz) (h : Step c s l s') :
    ∃ sz', Sizes c s' (Shell.satAdd p (added c s l)) sz' := by
  have keep (hp : s.phase ≠ .failed) : Shell.satAdd p 0 = p := by
    rw [hs.sum hp]; unfold Shell.satAdd; omega
  cases h with
  | skip hr hn h =>
    refine ⟨sz, ?_⟩
    rw [show added c s .tau = 0 from rfl, keep (by rw [hr]; exact fun e => by cases e)]
    exact ⟨hs.names, hs.where_, hs.puts, hs.used, hs.logged, hs.sum, hs.metaPut, hs.mapPut, hs.both, hs.first⟩
  | panic hr hn e h => exact ⟨sz, hs.fail⟩
  | start hr hn h hf ok =>
    cases ok with
    | false => exact ⟨sz, hs.fail⟩
    | true =>
      refine ⟨sz, ?_⟩
      rw [show added c s .tau = 0 from rfl, keep (by rw [hr]; exact fun e => by cases e)]
      exact ⟨hs.names, hs.where_, hs.puts, hs.used, hs.logged, hs.sum, hs.metaPut, hs.mapPut, hs.both, hs.first⟩
  | fetchDone hr id hid ok buf hb =>
    cases ok with
    | false => exact ⟨sz, hs.fail⟩
    | true =>
      obtain ⟨r, -⟩ := hi.running hr
      have hfresh : s.hashes id = none := (r.fetching id hid).2.1
      have hnf : s.phase ≠ .failed := by rw [hr]; exact fun e => by cases e
      have hkeep (v : Spec) {n : Name} (hn : n ∈ s.log) :
          n = metadataName ∨ n = mappingName ∨ ∃ i h, upd s.hashes id (some v) i = some (.obj h) ∧ n = objectKey h := by
        rcases hs.used n hn with h | h | ⟨i, h, h1, h2⟩
        · exact .inl h
        · exact .inr (.inl h)
        · refine .inr (.inr ⟨i, h, ?_, h2⟩)
          rw [upd_ne _ _ (fun e => by rw [e, hfresh] at h1; cases h1)]; exact h1
      have hlog (v : Spec) (hv : ∀ h, v = .obj h → objectKey h ∈ s.log) (i : Nat) (h : Bytes) (hh : upd s.hashes id (some v) i = some (.obj h)) :
          objectKey h ∈ s.log := by
        by_cases e : i = id
        · rw [e, upd_same, Option.some.injEq] at hh; exact hv h hh
        · rw [upd_ne _ _ e] at hh; exact hs.logged i h hh
      simp only [if_true]
      unfold upload
      rw [if_neg (fun h => h hid)]
      simp only
      cases ho : makeObject c id buf with
      | error e => exact ⟨sz, hs.names, (fun h => absurd rfl h), hs.puts, hs.used, hs.logged, fun h => absurd rfl h, (fun h => by cases h), (fun h => by cases h),
          (fun h => by cases h), fun h => by rcases h with h | h <;> cases h⟩
      | ok o =>
        cases o with
        | none =>
          refine ⟨sz, ?_⟩
          rw [show added c s (.fetched id true buf) = 0 by simp [added, ho], keep hnf]
          exact ⟨hs.names, hs.where_, hs.puts, fun n hn => hkeep .zero hn, hlog .zero (fun h e => by cases e), hs.sum, hs.metaPut, (fun h => by rw [hr] at h; cases h), hs.both, hs.first⟩
        | some o =>
          simp only
          by_cases hk : objectKey (c.P.sha o) ∈ s.seen
          · rw [if_pos hk]
            refine ⟨sz, ?_⟩
            rw [show added c s (.fetched id true buf) = 0 by simp [added, ho, hk], keep hnf]
            exact ⟨hs.names, hs.where_, hs.puts, fun n hn => hkeep _ hn, hlog _ (fun h e => by cases e; exact (r.seen _).mpr hk), hs.sum, hs.metaPut, (fun h => by rw [hr] at h; cases h), hs.both, hs.first⟩
          · rw [if_neg hk]
            obtain ⟨n1, n2, n3⟩ := startPut_names hs hnf (objectKey (c.P.sha o)) o
            refine ⟨sz ++ [(objectKey (c.P.sha o), o)], n1, (fun _ => n2), n3, fun n hn => ?_, fun i h hh => ?_, fun _ => ?_, (fun h => by rw [show _ = s.phase from rfl, hr] at h; cases h),
              (fun h => by rw [show _ = s.phase from rfl, hr] at h; cases h), (fun h => by rw [show _ = s.phase from rfl, hr] at h; cases h),
              fun h => by rw [show _ = s.phase from rfl, hr] at h; rcases h with h | h <;> cases h⟩
            · rcases List.mem_append.mp hn with hn | hn
              · exact hkeep _ hn
              · exact .inr (.inr ⟨id, c.P.sha o, upd_same _ _ _, List.mem_singleton.mp hn⟩)
            · by_cases e : i = id
              · have hh' : upd s.hashes id (some (Spec.obj (c.P.sha o))) i = some (.obj h) := hh
                rw [e, upd_same] at hh'
                cases hh'
                exact List.mem_append_right _ (by simp)
              · have hh' : upd s.hashes id (some (Spec.obj (c.P.sha o))) i = some (.obj h) := hh
                rw [upd_ne _ _ e] at hh'
                exact List.mem_append_left _ (hs.logged i h hh')
            · rw [show added c s (.fetched id true buf) = o.length by simp [added, ho, hk], hs.sum hnf, sat_sat]
              have e1 : counted s sz = sz := by simp [counted, hr]
              have e2 : ∀ t : St, t.phase = s.phase → counted t (sz ++ [(objectKey (c.P.sha o), o)]) = sz ++ [(objectKey (c.P.sha o), o)] := by
                intro t ht; simp [counted, ht, hr]
              rw [e1]
              refine Eq.symm (Eq.trans (congrArg (fun z => min (total z) (2 ^ 64 - 1)) (e2 _ rfl)) ?_)
              simp only [total_append]
              simp [total]
  | exec a b n d x h =>
    refine ⟨sz, ?_⟩
    have hm : (n, d) ∈ sz := hs.puts n d x (by rw [h]; simp)
    have hq : Shell.satAdd p (added c s .tau) = Shell.satAdd p 0 := rfl
    refine ⟨hs.names, fun hnf nd hnd => ?_, fun n' d' x' hx => ?_, hs.used, hs.logged, fun hp => ?_, hs.metaPut, hs.mapPut, hs.both, hs.first⟩
    · by_cases e : nd.1 = n
      · refine .inr ?_
        show upd s.store n (some d) nd.1 = _
        rw [e, upd_same, hs.unique hi.base.nodup hm (d' := nd.2) (by rw [← e]; exact hnd)]
      · rcases hs.where_ hnf nd hnd with ⟨y, hy⟩ | hy
        · rw [h] at hy
          rcases mem_mid.mp hy with e' | hy
          · cases e'; exact absurd rfl e
          · exact .inl ⟨y, mem_mid.mpr (.inr hy)⟩
        · refine .inr ?_
          show upd s.store n (some d) nd.1 = _
          rw [upd_ne _ _ e]; exact hy
    · rcases mem_mid.mp hx with e | hx
      · cases e; exact hm
      · exact hs.puts _ _ x' (by rw [h]; exact mem_mid.mpr (.inr hx))
    · rw [hq, keep hp]; exact hs.sum hp
  | putDone hr a b n d x ok h hx =>
    have hnf : s.phase ≠ .failed := by rw [hr]; exact fun e => by cases e
    have hadd : ∀ ok, added c s (.uploaded n ok) = 0 := by intro ok; cases ok <;> simp [added, hr]
    rw [hadd, keep hnf]
    cases ok with
    | false => exact ⟨sz, hs.names, (fun h => absurd rfl h), fun n' d' x' hm => hs.puts n' d' x' (by rw [h]; exact mem_mid.mpr (.inr hm)), hs.used, hs.logged,
        (fun h => absurd rfl h), (fun h => by cases h), (fun h => by cases h), (fun h => by cases h), fun h => by rcases h with h | h <;> cases h⟩
    | true =>
      have hst : s.store n = some d := hi.base.executed n d (by rw [h, hx rfl]; simp)
      have hd := hs.drop h hst
      by_cases hpos : 0 < s.inflight
      · simp only [hpos, decide_true, Bool.and_true, if_true]
        exact ⟨sz, hd.names, hd.where_, hd.puts, hd.used, hd.logged, hd.sum, hd.metaPut, hd.mapPut, hd.both, hd.first⟩
      · simp only [hpos, decide_false, Bool.and_false, Bool.false_eq_true, if_false]
        exact ⟨sz, hd.fail⟩
  | finish hr hn hf hi' =>
    have hnf : s.phase ≠ .failed := by rw [hr]; exact fun e => by cases e
    rw [show added c s .tau = 0 from rfl, keep hnf]
    unfold finish
    cases hm : serializeMapping c.P (entries c.count s.hashes) c.hkey c.keys with
    | error e => exact ⟨sz, hs.fail⟩
    | ok b =>
      simp only
      cases ha : archiveMeta c with
      | error e => exact ⟨sz, hs.fail⟩
      | ok m =>
        obtain ⟨n1, n2, n3⟩ := startPut_names hs hnf metadataName (c.P.encMeta m)
        refine ⟨sz ++ [(metadataName, c.P.encMeta m)], n1, (fun _ => n2), n3, fun n hn => ?_, (fun i h hh => List.mem_append_left _ (hs.logged i h hh)), fun _ => ?_, fun _ => ⟨m, ha, by simp⟩,
          (fun h => by cases h), (fun h => by cases h), fun _ => List.mem_append_right _ (by simp)⟩
        · rcases List.mem_append.mp hn with hn | hn
          · exact hs.used n hn
          · exact .inl (List.mem_singleton.mp hn)
        · rw [hs.sum hnf, show counted s sz = sz by simp [counted, hr]]
          show _ = min (total (counted { s with phase := .metaPut, puts := _, log := _ } _)) _
          simp [counted]
  | metaDone hr a b d x ok h hx =>
    have hnf : s.phase ≠ .failed := by rw [hr]; exact fun e => by cases e
    obtain ⟨m, hm1, hm2⟩ := hs.metaPut hr
    cases ok with
    | false => exact ⟨sz, hs.names, (fun h => absurd rfl h), fun n' d' x' hm => hs.puts n' d' x' (by rw [h]; exact mem_mid.mpr (.inr hm)), hs.used, hs.logged,
        (fun h => absurd rfl h), (fun h => by cases h), (fun h => by cases h), (fun h => by cases h), fun h => by rcases h with h | h <;> cases h⟩
    | true =>
      have hst : s.store metadataName = some d := hi.base.executed _ d (by rw [h, hx rfl]; simp)
      have hd := hs.drop h hst
      obtain ⟨pre, hpre⟩ : ∃ pre, sz = pre ++ [(metadataName, c.P.encMeta m)] := List.getLast?_eq_some_iff.mp hm2
      simp only [if_true]
      unfold publish
      simp only
      cases hser : serializeMapping c.P (entries c.count s.hashes) c.hkey c.keys with
      | error e => exact ⟨sz, hd.fail⟩
      | ok bytes =>
        obtain ⟨n1, n2, n3⟩ := startPut_names hd hnf mappingName bytes
        refine ⟨sz ++ [(mappingName, bytes)], n1, (fun _ => n2), n3, fun n hn => ?_, (fun i h hh => List.mem_append_left _ (hs.logged i h hh)), fun _ => ?_,
          (fun h => by cases h), (fun _ => ⟨bytes, hser, by simp⟩), (fun h => by cases h), fun _ => List.mem_append_left _ (hs.first (.inl hr))⟩
        · rcases List.mem_append.mp hn with hn | hn
          · exact hs.used n hn
          · exact .inr (.inl (List.mem_singleton.mp hn))
        · rw [show added c s (.uploaded metadataName true) = (c.P.encMeta m).length by simp [added, hr, hm1], hs.sum hnf, sat_sat]
          show _ = min (total (counted { s with phase := .mapPut, puts := _, log := _ } _)) _
          simp [counted, hr, hpre, total_append, total]
  | mapDone hr a b d x ok h hx =>
    have hnf : s.phase ≠ .failed := by rw [hr]; exact fun e => by cases e
    obtain ⟨bytes, hm1, hm2⟩ := hs.mapPut hr
    cases ok with
    | false => exact ⟨sz, hs.names, (fun h => absurd rfl h), fun n' d' x' hm => hs.puts n' d' x' (by rw [h]; exact mem_mid.mpr (.inr hm)), hs.used, hs.logged,
        (fun h => absurd rfl h), (fun h => by cases h), (fun h => by cases h), (fun h => by cases h), fun h => by rcases h with h | h <;> cases h⟩
    | true =>
      have hst : s.store mappingName = some d := hi.base.executed _ d (by rw [h, hx rfl]; simp)
      have hd := hs.drop h hst
      obtain ⟨pre, hpre⟩ : ∃ pre, sz = pre ++ [(mappingName, bytes)] := List.getLast?_eq_some_iff.mp hm2
      refine ⟨sz, hd.names, (fun _ => hd.where_ hnf), hd.puts, hd.used, hd.logged, fun _ => ?_, (fun h => by cases h), (fun h => by cases h),
        fun _ => ⟨hs.first (.inr hr), ?_⟩, fun h => by rcases h with h | h <;> cases h⟩
      · rw [show added c s (.uploaded mappingName true) = bytes.length by simp [added, hr, hm1], hs.sum hnf, sat_sat]
        simp [counted, hr, hpre, total_append, total]
      · show mappingName ∈ s.log
        rw [← hs.names, hpre]; simp
  | timeout hr => exact ⟨sz, hs.fail⟩

theorem run_sizes {ls : List Lab} {p : Nat} (h : SRun c (St.init c st0) ls s p) : ∃ sz, Sizes c s p sz := by
  induction h with
  | nil => exact ⟨[], rfl, by simp, by simp [St.init], by simp [St.init], by simp [St.init], by simp [total, counted], by simp [St.init], by simp [St.init],
      by simp [St.init], by simp [St.init]⟩
  | snoc h1 h2 ih =>
    obtain ⟨sz, ih⟩ := ih
    exact step_sizes (run_inv h1.run) ih h2

/-- The length of what the store has under a name. -/
def sizeIn (store : Name → Option Bytes) (n : Name) : Nat := ((store n).getD []).length

/-- **C91** When an archive is complete, the physical size is the total size of the objects that make it up: metadata.json,
stripe-mapping and the data objects named by the mapping, each counted once (up to 2^64 - 1, where the sum stays). -/
theorem C91_physical {ls : List Lab} {p : Nat} (h : SRun c (St.init c st0) ls s p) (hd : s.phase = .done) :
    ∃ names : List Name, names.Nodup ∧
      (∀ n, n ∈ names ↔ n = metadataName ∨ n = mappingName ∨ ∃ id hash, s.hashes id = some (.obj hash) ∧ n = objectKey hash) ∧
      p = min (names.map (sizeIn s.store)).sum (2 ^ 64 - 1) := by
  have hi := run_inv h.run
  obtain ⟨sz, hs⟩ := run_sizes h
  have hnf : s.phase ≠ .failed := by rw [hd]; exact fun e => by cases e
  obtain ⟨-, -, -, hputs⟩ := hi.mapDone hd
  refine ⟨s.log, hi.base.nodup, fun n => ⟨hs.used n, ?_⟩, ?_⟩
  · rintro (rfl | rfl | ⟨id, hash, h1, rfl⟩)
    · exact (hs.both hd).1
    · exact (hs.both hd).2
    · exact hs.logged id hash h1
  · rw [hs.sum hnf, show counted s sz = sz by simp [counted, hd], ← hs.names, List.map_map]
    congr 2
    unfold total
    congr 1
    refine List.map_congr_left fun nd hm => ?_
    rcases hs.where_ hnf nd hm with ⟨x, hx⟩ | hx
    · rw [hputs] at hx; simp at hx
    · simp [sizeIn, hx]

/-- **C91** The statistics give the size of the archive and that of the device, both exactly when they fit 64 bits, and they
are only written for a complete archive; the command only succeeds with one. -/
theorem C91_report {ls : List Lab} {p sectors : Nat} {stats : Option Bool} (h : SRun c (St.init c st0) ls s p) :
    ((command s p sectors stats).1 = true → s.phase = .done) ∧
    ((command s p sectors stats).2 ≠ none ↔ s.phase = .done ∧ stats = some true) ∧
    ∀ r, (command s p sectors stats).2 = some r →
      (∃ names : List Name, names.Nodup ∧
        (∀ n, n ∈ names ↔ n = metadataName ∨ n = mappingName ∨ ∃ id hash, s.hashes id = some (.obj hash) ∧ n = objectKey hash) ∧
        r.physical = min (names.map (sizeIn s.store)).sum (2 ^ 64 - 1)) ∧
      (sectors * 512 < 2 ^ 64 → r.logical = sectors * 512) := by
  unfold command
  by_cases hd : s.phase = .done
  · rw [if_pos hd]
    match stats with
    | none => simp [hd]
    | some false => simp [hd]
    | some true =>
      refine ⟨fun _ => hd, by simp [hd], fun r hr => ?_⟩
      cases hr
      refine ⟨C91_physical h hd, fun hs => ?_⟩
      simp only
      omega
  · rw [if_neg hd]; simp [hd]

/-- **C91** Without `--stats`, or if the statistics can be written, the command succeeds exactly when the archive is
complete.

Missing for the full claim: statistics that cannot be written (`C91_false_exit`). -/
theorem C91_exit_partial {p sectors : Nat} {stats : Option Bool} (hs : stats ≠ some false) :
    (command s p sectors stats).1 = true ↔ s.phase = .done := by
  unfold command
  match stats with
  | none => by_cases hd : s.phase = .done <;> simp [hd]
  | some true => by_cases hd : s.phase = .done <;> simp [hd]
  | some false => exact absurd rfl hs

/-- The full claim is false: the archive is complete, and the command fails because the statistics could not be written. -/
theorem C91_false_exit : ∃ (c : Cfg) (st0 : Name → Option Bytes) (ls : List Lab) (s : St) (p : Nat), SRun c (St.init c st0) ls s p ∧
    s.phase = .done ∧ (command s p 3 (some false)).1 = false := by
  obtain ⟨s, h, hd, -⟩ := demo_run fun _ => none
  obtain ⟨p, hp⟩ := h.sized
  exact ⟨_, _, _, s, p, hp, hd, by simp [command, hd]⟩

/-- The hypotheses of `C91_physical` are met by a run with one data object of 512 bytes. -/
example : ∃ (s : St) (ls : List Lab) (p : Nat), SRun demoCfg (St.init demoCfg fun _ => none) ls s p ∧ s.phase = .done ∧
    s.hashes 0 = some (.obj (toyP.sha demoBuf)) ∧ s.hashes 2 = some .zero := by
  obtain ⟨s, h, hd, hh, -⟩ := demo_run fun _ => none
  obtain ⟨p, hp⟩ := h.sized
  exact ⟨s, _, p, hp, hd, by rw [hh]; simp, by rw [hh]; simp [upd]⟩

end Verif.Archive
