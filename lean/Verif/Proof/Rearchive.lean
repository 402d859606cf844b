import Verif.Props.Archive
import Verif.Model.Leftover
import Verif.Spec.Rearchive

/-! What the archiver may have written, in every phase. -/

set_option maxRecDepth 8000

namespace Verif.Archive
open Verif Verif.Crypt Verif.Disk

variable {c : Cfg} {s s' : St} {st0 : Name → Option Bytes} {ls : List Lab}

/-- `d` is what this run writes under the name `n`. -/
def Written (c : Cfg) (s : St) (n : Name) (d : Bytes) : Prop :=
  (n = objectKey (c.P.sha d) ∧ Made c s d) ∨
  (n = metadataName ∧ metadataName ∈ s.log ∧ ∃ m, archiveMeta c = .ok m ∧ d = c.P.encMeta m) ∨
  (n = mappingName ∧ mappingName ∈ s.log ∧ serializeMapping c.P (entries c.count s.hashes) c.hkey c.keys = .ok d)

structure Marks (c : Cfg) (st0 : Name → Option Bytes) (s : St) : Prop where
  puts : ∀ n d x, (n, d, x) ∈ s.puts → Written c s n d
  store : ∀ n, s.store n = st0 n ∨ ∃ d, s.store n = some d ∧ Written c s n d
  order : mappingName ∈ s.log → ∃ m, archiveMeta c = .ok m ∧ s.store metadataName = some (c.P.encMeta m) ∧
    ∀ d x, (metadataName, d, x) ∉ s.puts

theorem Written.mono {n : Name} {d : Bytes} (h : Written c s n d) (hg : ∀ id buf, s.got id = some buf → s'.got id = some buf)
    (hl : ∀ n ∈ s.log, n ∈ s'.log) (hh : mappingName ∈ s.log → s'.hashes = s.hashes) : Written c s' n d := by
  rcases h with ⟨h1, h2⟩ | ⟨h1, h2, h3⟩ | ⟨h1, h2, h3⟩
  · exact .inl ⟨h1, made_mono h2 hg⟩
  · exact .inr (.inl ⟨h1, hl _ h2, h3⟩)
  · exact .inr (.inr ⟨h1, hl _ h2, by rw [hh h2]; exact h3⟩)

theorem Marks.frame (hm : Marks c st0 s) (hg : ∀ id buf, s.got id = some buf → s'.got id = some buf)
    (hl : ∀ n ∈ s.log, n ∈ s'.log) (hh : mappingName ∈ s.log → s'.hashes = s.hashes)
    (hp : ∀ n d x, (n, d, x) ∈ s'.puts → (∃ x, (n, d, x) ∈ s.puts) ∨ Written c s' n d)
    (hs : ∀ n, s'.store n = s.store n ∨ ∃ d x, (n, d, x) ∈ s.puts ∧ s'.store n = some d)
    (ho : mappingName ∈ s'.log → ∃ m, archiveMeta c = .ok m ∧ s'.store metadataName = some (c.P.encMeta m) ∧
      ∀ d x, (metadataName, d, x) ∉ s'.puts) : Marks c st0 s' := by
  refine ⟨fun n d x h => ?_, fun n => ?_, ho⟩
  · rcases hp n d x h with ⟨x, h⟩ | h
    · exact (hm.puts n d x h).mono hg hl hh
    · exact h
  · rcases hs n with h | ⟨d, x, h1, h2⟩
    · rcases hm.store n with g | ⟨d, g1, g2⟩
      · exact .inl (by rw [h, g])
      · exact .inr ⟨d, by rw [h, g1], g2.mono hg hl hh⟩
    · exact .inr ⟨d, h2, (hm.puts n d x h1).mono hg hl hh⟩

/-- Steps that only move things between other fields. -/
theorem Marks.same (hm : Marks c st0 s) (h1 : s'.got = s.got) (h2 : s'.log = s.log) (h3 : s'.hashes = s.hashes)
    (h4 : ∀ p ∈ s'.puts, p ∈ s.puts) (h5 : s'.store = s.store) : Marks c st0 s' := by
  refine hm.frame (by rw [h1]; exact fun _ _ h => h) (by rw [h2]; exact fun _ h => h) (fun _ => h3) (fun n d x h => .inl ⟨x, h4 _ h⟩) (fun n => .inl (by rw [h5]))
    (fun h => ?_)
  rw [h2] at h
  obtain ⟨m, a1, a2, a3⟩ := hm.order h
  exact ⟨m, a1, by rw [h5]; exact a2, fun d x h => a3 d x (h4 _ h)⟩

theorem upload_marks (hi : Inv c st0 s) (hm : Marks c st0 s) (hr : s.phase = .running) {id : Nat} (hid : id ∈ s.fetching) {buf : Bytes} :
    Marks c st0 { upload c s id buf with got := upd s.got id (some buf) } := by
  have hnm := hi.nomap (.inl hr)
  have fg := ((hi.running hr).1.fetching id hid).2.2
  have hgm : ∀ id' buf', s.got id' = some buf' → upd s.got id (some buf) id' = some buf' := by
    intro id' buf' h
    have : id' ≠ id := by rintro rfl; rw [fg] at h; simp at h
    rw [upd_ne _ _ this]; exact h
  unfold upload
  rw [if_neg (by simpa using hid)]
  simp only
  cases hmk : makeObject c id buf with
  | error e =>
    exact hm.frame hgm (fun _ h => h) (fun h => absurd h hnm) (fun n d x h => .inl ⟨x, h⟩) (fun n => .inl rfl) (fun h => absurd h hnm)
  | ok oo =>
    cases oo with
    | none =>
      exact hm.frame hgm (fun _ h => h) (fun h => absurd h hnm) (fun n d x h => .inl ⟨x, h⟩) (fun n => .inl rfl) (fun h => absurd h hnm)
    | some o =>
      simp only
      split
      · exact hm.frame hgm (fun _ h => h) (fun h => absurd h hnm) (fun n d x h => .inl ⟨x, h⟩) (fun n => .inl rfl) (fun h => absurd h hnm)
      · refine hm.frame hgm ?_ (fun h => absurd h hnm) ?_ (fun n => .inl rfl) ?_
        · intro n h; simp only [St.startPut, List.mem_append]; exact .inl h
        · intro n d x h
          simp only [St.startPut, List.mem_append, List.mem_singleton, Prod.mk.injEq] at h
          rcases h with h | ⟨rfl, rfl, rfl⟩
          · exact .inl ⟨x, h⟩
          · exact .inr (.inl ⟨rfl, id, buf, by simp, hmk⟩)
        · intro h
          simp only [St.startPut, List.mem_append, List.mem_singleton] at h
          rcases h with h | h
          · exact absurd h hnm
          · exact absurd h.symm (objectKey_ne_mapping _)

theorem step_marks {l : Lab} (hi : Inv c st0 s) (hm : Marks c st0 s) (h : Step c s l s') : Marks c st0 s' := by
  cases h with
  | skip hr hn h => exact hm.same rfl rfl rfl (fun _ h => h) rfl
  | panic hr hn e h => exact hm.same rfl rfl rfl (fun _ h => h) rfl
  | start hr hn h hf submitOk => cases submitOk <;> exact hm.same rfl rfl rfl (fun _ h => h) rfl
  | fetchDone hr id hid ok buf hb =>
    cases ok with
    | false => exact hm.same rfl rfl rfl (fun _ h => h) rfl
    | true => simp only [if_true]; exact upload_marks hi hm hr hid
  | exec a b n d x h =>
    have hmem : (n, d, x) ∈ s.puts := by rw [h, mem_mid]; exact .inl rfl
    refine hm.frame (fun _ _ h => h) (fun _ h => h) (fun _ => rfl) ?_ ?_ ?_
    · intro n' d' x' h'
      simp only [mem_mid, Prod.mk.injEq] at h'
      rcases h' with ⟨rfl, rfl, rfl⟩ | h'
      · exact .inl ⟨x, hmem⟩
      · exact .inl ⟨x', by rw [h, mem_mid]; exact .inr h'⟩
    · intro n'
      by_cases hn : n' = n
      · subst hn; exact .inr ⟨d, x, hmem, by simp⟩
      · exact .inl (by simp only [upd_ne _ _ hn])
    · intro hl
      obtain ⟨m, a1, a2, a3⟩ := hm.order hl
      have hne : metadataName ≠ n := fun e => a3 d x (e ▸ hmem)
      refine ⟨m, a1, by simp only [upd_ne _ _ hne]; exact a2, fun d' x' h' => ?_⟩
      simp only [mem_mid, Prod.mk.injEq] at h'
      rcases h' with ⟨e, -⟩ | h'
      · exact hne e
      · exact a3 d' x' (by rw [h, mem_mid]; exact .inr h')
  | putDone hr a b n d x ok h hx =>
    split <;> exact hm.same rfl rfl rfl (fun p hp => by rw [h, mem_mid]; exact .inr hp) rfl
  | finish hr hn hf hi0 =>
    have hnm := hi.nomap (.inl hr)
    unfold finish
    split
    · exact hm.same rfl rfl rfl (fun _ h => h) rfl
    · split
      · exact hm.same rfl rfl rfl (fun _ h => h) rfl
      · rename_i m hm'
        refine hm.frame (fun _ _ h => h) ?_ (fun _ => rfl) ?_ (fun n => .inl rfl) ?_
        · intro n h; simp only [St.startPut, List.mem_append]; exact .inl h
        · intro n d x h
          simp only [St.startPut, List.mem_append, List.mem_singleton, Prod.mk.injEq] at h
          rcases h with h | ⟨rfl, rfl, rfl⟩
          · exact .inl ⟨x, h⟩
          · exact .inr (.inr (.inl ⟨rfl, by simp [St.startPut], m, hm', rfl⟩))
        · intro h
          simp only [St.startPut, List.mem_append, List.mem_singleton] at h
          rcases h with h | h
          · exact absurd h hnm
          · exact absurd h.symm metadata_ne_mapping
  | metaDone hr a b d x ok h hx =>
    have hmem : (metadataName, d, x) ∈ s.puts := by rw [h, mem_mid]; exact .inl rfl
    have hnm := hi.nomap (.inr hr)
    cases ok with
    | false => exact hm.same rfl rfl rfl (fun p hp => by rw [h, mem_mid]; exact .inr hp) rfl
    | true =>
      have hxt := hx rfl
      subst hxt
      simp only [if_true]
      obtain ⟨m, hm1, hm2⟩ := hi.metaPut hr
      have hd := hm2 _ _ hmem
      subst hd
      have hst := hi.base.executed _ _ hmem
      have hnd := hi.base.putsNodup
      rw [h] at hnd
      unfold publish
      split
      · exact hm.same rfl rfl rfl (fun p hp => by rw [h, mem_mid]; exact .inr hp) rfl
      · rename_i bytes hser
        refine hm.frame (fun _ _ h => h) ?_ (fun _ => rfl) ?_ (fun n => .inl rfl) ?_
        · intro n h; simp only [St.startPut, List.mem_append]; exact .inl h
        · intro n d x h'
          simp only [St.startPut, List.mem_append (s := a ++ b), List.mem_singleton, Prod.mk.injEq] at h'
          rcases h' with h' | ⟨rfl, rfl, rfl⟩
          · exact .inl ⟨x, by rw [h, mem_mid]; exact .inr h'⟩
          · exact .inr (.inr (.inr ⟨rfl, by simp [St.startPut], hser⟩))
        · intro _
          refine ⟨m, hm1, hst, fun d' x' h' => ?_⟩
          simp only [St.startPut, List.mem_append (s := a ++ b), List.mem_singleton, Prod.mk.injEq] at h'
          rcases h' with h' | ⟨e, -⟩
          · exact (nodup_mid hnd).2 d' x' h'
          · exact metadata_ne_mapping e
  | mapDone hr a b d x ok h hx =>
    cases ok <;> exact hm.same rfl rfl rfl (fun p hp => by rw [h, mem_mid]; exact .inr hp) rfl
  | timeout hr => exact hm.same rfl rfl rfl (fun _ h => h) rfl

theorem run_marks (h : Run c (St.init c st0) ls s) : Marks c st0 s := by
  induction h with
  | nil => exact ⟨by simp [St.init], fun n => .inl rfl, by simp [St.init]⟩
  | snoc h1 h2 ih => exact step_marks (run_inv h1) ih h2

/-! ### Opening -/

/-- Opening objects whose description is that of the run. -/
theorem open_meta (hc : c.Ok) {m : AMeta} (hm : archiveMeta c = .ok m) {st : Name → Option Bytes}
    (hst : st metadataName = some (c.P.encMeta m)) :
    openArchive c.P c.kek st = match st mappingName with
      | none => .error .io
      | some b => match deserializeMapping c.P b c.hkey c.keys with
        | .error e => .error e
        | .ok table => .ok { keys := c.keys, table := table, ssc := c.ssc, comp := c.comp } := by
  obtain ⟨h1, h2, h3, h4, h5, h6, h7, h8⟩ := archiveMeta_ok hc hm
  have hv : verifyMeta c.P c.hkey m = .ok () := by
    simp only [verifyMeta, verifyTag, h5, hc.lawful.mac_len, ne_eq, not_true_eq_false, if_false, if_true]
  simp only [openArchive, hst, hc.lawful.decMeta_encMeta m h4, h1, ne_eq, not_true_eq_false, if_false, h6, hv, openKeys, h2, h3]
  cases hk : c.keys with
  | none => simp only [h7 hk]; rfl
  | some k =>
    obtain ⟨e, he, hu⟩ := h8 k hk
    simp only [he, hu, liftCrypt]; rfl

/-- The index of a run, as a file. -/
theorem index_file (hP : c.P.Lawful) {es : List (Nat × Spec)} {b : Bytes} (hl : (c.P.encMap es).length < 2 ^ 64)
    (h : serializeMapping c.P es c.hkey c.keys = .ok b) :
    ∃ f, b = c.P.encFile f ∧ c.P.decFile b = some f ∧ f.tag = c.P.mac c.hkey (mapInput f.domain f.version f.plaintextLen f.ciphertext) := by
  simp only [serializeMapping] at h
  split at h
  · simp at h
  · rename_i ct hct
    simp only [Except.ok.injEq] at h
    subst h
    have hrange : (MapFile.mk mapDomain 1 ct (c.P.encMap es).length
        (c.P.mac c.hkey (mapInput mapDomain 1 (c.P.encMap es).length ct))).InRange :=
      ⟨by show 1 < 2 ^ 32; decide, hl, by show mapDomain.length < 2 ^ 64; decide, hP.mac_len _ _⟩
    exact ⟨_, rfl, hP.decFile_encFile _ hrange, rfl⟩

/-- A mapping whose tag does not verify is refused. -/
theorem deserialize_bad_tag {P : Prims} {b hkey : Bytes} {keys : Option Keys} {f : MapFile} (hf : P.decFile b = some f)
    (ht : P.mac hkey (mapInput f.domain f.version f.plaintextLen f.ciphertext) ≠ f.tag) :
    ∃ e, deserializeMapping P b hkey keys = .error e := by
  simp only [deserializeMapping, hf, verifyTag, if_neg ht]
  split
  · exact ⟨_, rfl⟩
  · split
    · exact ⟨_, rfl⟩
    · split
      · exact ⟨_, rfl⟩
      · exact ⟨_, rfl⟩

/-! ### Reading -/

/-- Objects that hold everything the index of the run names read as the run says. -/
theorem complete_says (hc : c.Ok) (h : Run c (St.init c st0) ls s) (hcomp : Complete c s) (hn : NoCollision c s) {st : Name → Option Bytes}
    {id len : Nat} (hid : id < c.count) (hlen : c.ssc * 512 ≤ len) :
    (∀ hh o, s.hashes id = some (.obj hh) → s.store (objectKey hh) = some o → Made c s o → st (objectKey hh) = some o) →
    ∃ r, readStripe c.P { keys := c.keys, table := entries c.count s.hashes, ssc := c.ssc, comp := c.comp } st id len = .ok r ∧
      Says c ls id len r := by
  intro hst
  obtain ⟨ha, hb⟩ := hcomp.all id hid
  have htab : tableOf (entries c.count s.hashes) id = s.hashes id := by rw [tableOf_entries, if_pos hid]
  rcases ha with ha | ha
  · obtain ⟨v, hv⟩ := Option.ne_none_iff_exists'.1 (hb ha)
    obtain ⟨buf, h1, h2, h3, h4⟩ := hcomp.hashed id v hv
    refine ⟨buf ++ zeros (len - c.ssc * 512), ?_, .inl ⟨buf, (got_iff h id buf).1 h1, rfl⟩⟩
    cases v with
    | zero =>
      have hz := h3 rfl
      have hall : buf.all (· == 0) = true := by
        simp only [makeObject] at hz
        split at hz
        · assumption
        · split at hz
          · simp at hz
          · split at hz <;> simp at hz
      have hbz := zeros_of_all hall
      simp only [readStripe, htab, hv]
      rw [hbz, h2]
      simp only [zeros, List.replicate_append_replicate, Except.ok.injEq]
      congr 1; omega
    | obj hash =>
      obtain ⟨o, ho, hs⟩ := h4 hash rfl
      obtain ⟨o', g1, g2, g3⟩ := hcomp.stored id hash hv
      have : o' = o := hn o' o g2 ⟨id, buf, h1, ho⟩ (by rw [g1, hs])
      subst this
      have g4 := hst hash o' hv g3 g2
      subst hs
      simp only [readStripe, htab, hv, g4]
      rw [makeObject_read hc ho _ (by omega), h2]
  · have hnone : s.hashes id = none := by
      cases hv : s.hashes id with
      | none => rfl
      | some v =>
        have := (hcomp.used id (by simp [hv])).2
        rw [ha] at this; simp at this
    exact ⟨zeros len, by simp only [readStripe, htab, hnone], .inr ⟨fun buf hb => C22_restore.fetched_should h hb ha, rfl⟩⟩

/-- The same, when an object may also have been replaced by bytes with another hash. -/
theorem complete_says_or_fails (hc : c.Ok) (h : Run c (St.init c st0) ls s) (hcomp : Complete c s) (hn : NoCollision c s) {st : Name → Option Bytes}
    {id len : Nat} (hid : id < c.count) (hlen : c.ssc * 512 ≤ len)
    (hst : ∀ hh o, s.hashes id = some (.obj hh) → s.store (objectKey hh) = some o → Made c s o →
      ∃ d, st (objectKey hh) = some d ∧ (c.P.sha d = c.P.sha o → d = o)) :
    (∃ e, readStripe c.P { keys := c.keys, table := entries c.count s.hashes, ssc := c.ssc, comp := c.comp } st id len = .error e) ∨
    ∃ r, readStripe c.P { keys := c.keys, table := entries c.count s.hashes, ssc := c.ssc, comp := c.comp } st id len = .ok r ∧
      Says c ls id len r := by
  by_cases hx : ∀ hh o, s.hashes id = some (.obj hh) → s.store (objectKey hh) = some o → Made c s o → st (objectKey hh) = some o
  · exact .inr (complete_says hc h hcomp hn hid hlen hx)
  · left
    have hx : ∃ hh o, s.hashes id = some (.obj hh) ∧ s.store (objectKey hh) = some o ∧ Made c s o ∧ st (objectKey hh) ≠ some o := by
      apply Classical.byContradiction
      intro hno
      apply hx
      intro hh o a1 a2 a3
      apply Classical.byContradiction
      intro a4
      exact hno ⟨hh, o, a1, a2, a3, a4⟩
    obtain ⟨hh, o, a1, a2, a3, a4⟩ := hx
    obtain ⟨d, d1, d2⟩ := hst hh o a1 a2 a3
    have htab : tableOf (entries c.count s.hashes) id = some (.obj hh) := by rw [tableOf_entries, if_pos hid, a1]
    obtain ⟨o', g1, g2, g3⟩ := hcomp.stored id hh a1
    rw [a2] at g3
    simp only [Option.some.injEq] at g3
    subst g3
    have hne : c.P.sha d ≠ hh := by
      intro e
      exact a4 (by rw [d1, d2 (by rw [e, g1])])
    refine ⟨.archive, ?_⟩
    simp only [readStripe, htab, d1, finishFetch, ne_eq, hne, not_false_eq_true, if_true]

end Verif.Archive
