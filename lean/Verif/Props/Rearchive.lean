import Verif.Proof.Rearchive
import Verif.Proof.ArchiveRun

/-! # C71: archiving over an existing archive -/

set_option maxRecDepth 8000

namespace Verif.Archive
open Verif Verif.Crypt Verif.Disk

/-- A second archive run into the place of a finished one, with the same key-encryption key; `s'` is any state of
the second run. -/
structure Twice (c : Cfg) (st0 : Name → Option Bytes) (ls : List Lab) (s : St) (c' : Cfg) (ls' : List Lab) (s' : St) : Prop where
  ok : c.Ok
  run : Run c (St.init c st0) ls s
  done : s.phase = .done
  len : (c.P.encMap (entries c.count s.hashes)).length < 2 ^ 64
  ok' : c'.Ok
  run' : Run c' (St.init c' s.store) ls' s'
  len' : (c'.P.encMap (entries c'.count s'.hashes)).length < 2 ^ 64
  prims : c'.P = c.P
  kek : c'.kek = c.kek
  /-- The new random HMAC key does not give an old tag. -/
  tag : ∀ msg, Authentic c s msg → c.P.mac c'.hkey msg ≠ c.P.mac c.hkey msg
  /-- The hash does not collide on the objects of the two archives and their first parts. -/
  hash : ∀ d o k, Made c s d ∨ Made c' s' d → Made c s o → c.P.sha (d.take k) = c.P.sha o → d.take k = o
  hash' : NoCollision c' s'

/-- A JSON or CBOR document that is cut short does not parse. -/
structure Prims.PrefixFree (P : Prims) : Prop where
  metaCut : ∀ m k, k < (P.encMeta m).length → P.decMeta ((P.encMeta m).take k) = none
  fileCut : ∀ f k, k < (P.encFile f).length → P.decFile ((P.encFile f).take k) = none

variable {c c' : Cfg} {s s' : St} {st0 : Name → Option Bytes} {ls ls' : List Lab} {st : Name → Option Bytes}

theorem Twice.noCollision (h : Twice c st0 ls s c' ls' s') : NoCollision c s := by
  intro o o' ho ho' e
  have := h.hash o o' o.length (.inl ho) ho' (by rw [List.take_length]; exact e)
  rwa [List.take_length] at this

theorem Twice.complete (h : Twice c st0 ls s c' ls' s') : Complete c s := (run_inv h.run).complete (.inr (.inr (.inl h.done)))

/-- Objects that hold the old description and the old index open as the old archive. -/
theorem Twice.opens_old (h : Twice c st0 ls s c' ls' s') (h1 : st metadataName = s.store metadataName) (h2 : st mappingName = s.store mappingName) :
    openArchive c.P c.kek st = .ok { keys := c.keys, table := entries c.count s.hashes, ssc := c.ssc, comp := c.comp } := by
  have ho := open_done h.ok (run_inv h.run) h.done h.len
  obtain ⟨m, hm, hst, -⟩ := (run_inv h.run).metaDone (.inr h.done)
  rw [open_meta h.ok hm hst] at ho
  rw [open_meta h.ok hm (by rw [h1]; exact hst), h2]
  exact ho

/-- **C71** The window: with the new description and the old index in place, the archive cannot be opened. -/
theorem C71_mixed_unopenable (h : Twice c st0 ls s c' ls' s') {m : AMeta} (hm : archiveMeta c' = .ok m)
    (h1 : st metadataName = some (c'.P.encMeta m)) (h2 : st mappingName = s.store mappingName) : Unopenable c.P c.kek st := by
  obtain ⟨b, hb, hbs, -⟩ := (run_inv h.run).mapDone h.done
  obtain ⟨f, -, hf, ht⟩ := index_file h.ok.lawful h.len hb
  have hne := h.tag _ (.inr ⟨b, f, hbs, hf, rfl⟩)
  rw [← ht] at hne
  obtain ⟨e, he⟩ := deserialize_bad_tag (keys := c'.keys) hf hne
  have ho := open_meta h.ok' hm h1
  rw [h2, hbs] at ho
  simp only at ho
  rw [h.prims, h.kek, he] at ho
  exact ⟨e, ho⟩

/-- Objects that hold the new description and the new index read as the new archive. -/
theorem Twice.presents_new (h : Twice c st0 ls s c' ls' s') (hl : mappingName ∈ s'.log) {m : AMeta} (hm : archiveMeta c' = .ok m)
    (h1 : st metadataName = some (c'.P.encMeta m)) {b : Bytes}
    (hb : serializeMapping c'.P (entries c'.count s'.hashes) c'.hkey c'.keys = .ok b) (h2 : st mappingName = some b)
    (h3 : ∀ hh, st (objectKey hh) = s'.store (objectKey hh)) : Presents c' ls' c.kek st := by
  have hcomp := (run_inv h.run').complete (.inr (.inr (.inr hl)))
  have hdes := mapping_round_trip h.ok'.lawful (entries_range h.ok' hcomp.hashed) h.len' hb
  have ho := open_meta h.ok' hm h1
  rw [h2] at ho
  simp only [hdes] at ho
  rw [h.kek] at ho
  exact ⟨_, ho, fun id len hid hlen => complete_says h.ok' h.run' hcomp h.hash' hid hlen (fun hh o _ g _ => by rw [h3]; exact g)⟩

/-- What an object of the old archive has become. -/
theorem Twice.object (h : Twice c st0 ls s c' ls' s') (hL : Left s' st) {hh : Bytes} {o : Bytes} (ho : s.store (objectKey hh) = some o) :
    st (objectKey hh) = some o ∨ ∃ d k, Made c' s' d ∧ st (objectKey hh) = some (d.take k) := by
  have hm := run_marks h.run'
  have hw : ∀ d, Written c' s' (objectKey hh) d → Made c' s' d := by
    intro d hd
    rcases hd with ⟨-, g⟩ | ⟨g, -⟩ | ⟨g, -⟩
    · exact g
    · exact absurd g (objectKey_ne_metadata _)
    · exact absurd g (objectKey_ne_mapping _)
  rcases hL (objectKey hh) with g | ⟨d, x, k, g1, g2⟩
  · rcases hm.store (objectKey hh) with e | ⟨d, e1, e2⟩
    · exact .inl (by rw [g, e, ho])
    · exact .inr ⟨d, d.length, hw d e2, by rw [g, e1, List.take_length]⟩
  · exact .inr ⟨d, k, hw d (hm.puts _ _ _ g1), g2⟩

/-- **C71** Whatever is left of the second run, of a process that died at any moment and may have cut short the objects it was writing: the
archive cannot be opened, or it is the old one, in which stripes read as the old run recorded them or fail to read, or
it is the new one, complete. Old and new are never mixed. -/
theorem C71_never_mixed (h : Twice c st0 ls s c' ls' s') (hp : c.P.PrefixFree) (hL : Left s' st) :
    Unopenable c.P c.kek st ∨ PresentsOrFails c ls c.kek st ∨ Presents c' ls' c.kek st := by
  have hi := run_inv h.run'
  have hm := run_marks h.run'
  by_cases hl : mappingName ∈ s'.log
  · obtain ⟨m, m1, m2, m3⟩ := hm.order hl
    have hst : st metadataName = some (c'.P.encMeta m) := by
      rcases hL metadataName with g | ⟨d, x, k, g, -⟩
      · rw [g, m2]
      · exact absurd g (m3 d x)
    have hcomp := hi.complete (.inr (.inr (.inr hl)))
    have hobj : ∀ hh, st (objectKey hh) = s'.store (objectKey hh) := by
      intro hh
      rcases hL (objectKey hh) with g | ⟨d, x, k, g, -⟩
      · exact g
      · rcases hcomp.names _ _ _ g with e | e
        · exact absurd e (objectKey_ne_metadata _)
        · exact absurd e (objectKey_ne_mapping _)
    have key : ∀ b, Written c' s' mappingName b → serializeMapping c'.P (entries c'.count s'.hashes) c'.hkey c'.keys = .ok b := by
      intro b hb
      rcases hb with ⟨g, -⟩ | ⟨g, -⟩ | ⟨-, -, g⟩
      · exact absurd g.symm (objectKey_ne_mapping _)
      · exact absurd g.symm metadata_ne_mapping
      · exact g
    rcases hL mappingName with g | ⟨b, x, k, g1, g2⟩
    · rcases hm.store mappingName with e | ⟨b, e1, e2⟩
      · exact .inl (C71_mixed_unopenable h m1 hst (by rw [g, e]))
      · exact .inr (.inr (h.presents_new hl m1 hst (key b e2) (by rw [g, e1]) hobj))
    · have hb := key b (hm.puts _ _ _ g1)
      by_cases hk : k < b.length
      · left
        obtain ⟨f, f1, -⟩ := index_file h.ok'.lawful h.len' hb
        have hcut := hp.fileCut f k (by rw [← h.prims, ← f1]; exact hk)
        rw [← h.prims, ← f1] at hcut
        have ho := open_meta h.ok' m1 hst
        rw [g2] at ho
        simp only [deserializeMapping, hcut] at ho
        rw [h.prims, h.kek] at ho
        exact ⟨_, ho⟩
      · exact .inr (.inr (h.presents_new hl m1 hst hb (by rw [g2, List.take_of_length_le (by omega)]) hobj))
  · have hmap : st mappingName = s.store mappingName := by
      rcases hL mappingName with g | ⟨b, x, k, g1, -⟩
      · rw [g]; exact hi.base.storeLog _ hl
      · exact absurd (hi.base.putsLog _ _ _ g1) hl
    have key : ∀ b, Written c' s' metadataName b → ∃ m, archiveMeta c' = .ok m ∧ b = c'.P.encMeta m := by
      intro b hb
      rcases hb with ⟨g, -⟩ | ⟨-, -, g⟩ | ⟨g, -⟩
      · exact absurd g.symm (objectKey_ne_metadata _)
      · exact g
      · exact absurd g metadata_ne_mapping
    have hold : st metadataName = s.store metadataName → PresentsOrFails c ls c.kek st := by
      intro hst
      refine ⟨_, h.opens_old hst hmap, fun id len hid hlen => complete_says_or_fails h.ok h.run h.complete h.noCollision hid hlen ?_⟩
      intro hh o _ g2 g3
      rcases h.object hL g2 with e | ⟨d, k, e1, e2⟩
      · exact ⟨o, e, fun _ => rfl⟩
      · exact ⟨_, e2, h.hash d o k (.inr e1) g3⟩
    rcases hL metadataName with g | ⟨d, x, k, g1, g2⟩
    · rcases hm.store metadataName with e | ⟨d, e1, e2⟩
      · exact .inr (.inl (hold (by rw [g, e])))
      · obtain ⟨m, m1, rfl⟩ := key d e2
        exact .inl (C71_mixed_unopenable h m1 (by rw [g, e1]) hmap)
    · obtain ⟨m, m1, rfl⟩ := key d (hm.puts _ _ _ g1)
      left
      by_cases hk : k < (c'.P.encMeta m).length
      · rw [h.prims] at hk g2
        refine ⟨.metadata, ?_⟩
        simp only [openArchive, g2, hp.metaCut m k hk]
      · exact C71_mixed_unopenable h m1 (by rw [g2, List.take_of_length_le (by omega)]) hmap

/-- **C71**, while the second run has not come to its end (`_partial`: missing are the time from the put of metadata.json to the put of the
index, and objects cut short; there the claim is false, `C71_false_window`, `C71_false_cut`). Until metadata.json is handed
to the store the old archive is as it was, whatever the second run has uploaded and however it failed. -/
theorem C71_old_kept_partial (h : Twice c st0 ls s c' ls' s') (hl : metadataName ∉ s'.log) : Presents c ls c.kek s'.store := by
  have hi := run_inv h.run'
  have hm := run_marks h.run'
  have hl' : mappingName ∉ s'.log := by
    intro hx
    obtain ⟨m, m1, m2, m3⟩ := hm.order hx
    exact hl (logged h.run' hx)
  refine ⟨_, h.opens_old (hi.base.storeLog _ hl) (hi.base.storeLog _ hl'), fun id len hid hlen =>
    complete_says h.ok h.run h.complete h.noCollision hid hlen ?_⟩
  intro hh o g1 g2 g3
  rcases hm.store (objectKey hh) with e | ⟨d, e1, e2⟩
  · rw [e, g2]
  · rcases e2 with ⟨f1, f2⟩ | ⟨f, -⟩ | ⟨f, -⟩
    · have hk := objectKey_inj f1
      obtain ⟨o', a1, -, a3⟩ := h.complete.stored id hh g1
      rw [g2] at a3
      simp only [Option.some.injEq] at a3
      subst a3
      have := h.hash d o d.length (.inr f2) g3 (by rw [List.take_length, a1, hk, h.prims])
      rw [List.take_length] at this
      rw [e1, this]
    · exact absurd f (objectKey_ne_metadata _)
    · exact absurd f (objectKey_ne_mapping _)
where
  logged {c : Cfg} {s : St} {st0 : Name → Option Bytes} {ls : List Lab} (h : Run c (St.init c st0) ls s) (hx : mappingName ∈ s.log) :
      metadataName ∈ s.log := by
    suffices hk : (s.phase = .metaPut ∨ mappingName ∈ s.log) → metadataName ∈ s.log from hk (.inr hx)
    clear hx
    induction h with
    | nil => simp [St.init]
    | @snoc s s' ls l h1 h2 ih =>
      have hi := run_inv h1
      cases h2 with
      | skip hr => exact fun h => ih (by simpa [hr] using h)
      | panic hr => exact fun h => ih (.inr (by simpa [St.fail] using h))
      | start hr hn h hf submitOk => cases submitOk <;> exact fun h => ih (by simpa [hr, St.fail] using h)
      | fetchDone hr id hid ok buf hb =>
        have hnm := hi.nomap (.inl hr)
        cases ok with
        | false => exact fun h => absurd (by simpa [St.fail] using h) hnm
        | true =>
          simp only [if_true]
          unfold upload
          rw [if_neg (by simpa using hid)]
          simp only
          split
          · simp [St.fail, hnm]
          · simp [hr, hnm]
          · split
            · simp [hr, hnm]
            · simp [St.startPut, hr, hnm, Ne.symm (objectKey_ne_mapping _)]
      | exec a b n d x h => exact ih
      | putDone hr a b n d x ok h hx =>
        have hnm := hi.nomap (.inl hr)
        split <;> simp [St.fail, hr, hnm]
      | finish hr hn hf hi0 =>
        have hnm := hi.nomap (.inl hr)
        unfold finish
        split
        · simp [St.fail, hnm]
        · split
          · simp [St.fail, hnm]
          · simp [St.startPut]
      | metaDone hr a b d x ok h hx =>
        have := ih (.inl hr)
        intro _
        split
        · unfold publish
          split <;> simp [St.fail, St.startPut, this]
        · simpa [St.fail] using this
      | mapDone hr a b d x ok h hx =>
        cases ok <;> exact fun h => ih (.inr (by simpa [St.fail] using h))
      | timeout hr => exact fun h => ih (.inr (by simpa [St.fail] using h))

/-- **C71** A second run that finishes replaces the old archive by the new one. -/
theorem C71_new_complete (h : Twice c st0 ls s c' ls' s') (hd : s'.phase = .done) : Presents c' ls' c.kek s'.store := by
  have hi := run_inv h.run'
  obtain ⟨m, m1, m2, -⟩ := hi.metaDone (.inr hd)
  obtain ⟨b, b1, b2, -⟩ := hi.mapDone hd
  have hcomp := hi.complete (.inr (.inr (.inl hd)))
  have hdes := mapping_round_trip h.ok'.lawful (entries_range h.ok' hcomp.hashed) h.len' b1
  have ho := open_meta h.ok' m1 m2
  rw [b2] at ho
  simp only [hdes] at ho
  rw [h.kek] at ho
  exact ⟨_, ho, fun id len hid hlen => complete_says h.ok' h.run' hcomp h.hash' hid hlen (fun hh o _ g _ => g)⟩

/-- **C71 is false**, for every pair of archives: from the moment metadata.json has been replaced until the new index is
there, nothing can be opened. -/
theorem C71_false_window (h : Twice c st0 ls s c' ls' s') (hl : mappingName ∈ s'.log) (hm : s'.store mappingName = s.store mappingName) :
    Unopenable c.P c.kek s'.store := by
  obtain ⟨m, m1, m2, -⟩ := (run_marks h.run').order hl
  exact C71_mixed_unopenable h m1 m2 hm

/-! ### The hypotheses are met, and C71 is false -/

/-- An encoding none of whose values is a first part of another. -/
def esc : Bytes → Bytes
  | [] => [0]
  | x :: l => 1 :: x :: esc l

theorem esc_take {a b : Bytes} {k : Nat} (h : esc a = (esc b).take k) : a = b ∧ (esc b).length ≤ k := by
  induction b generalizing a k with
  | nil =>
    cases k with
    | zero => cases a <;> simp [esc] at h
    | succ k => cases a <;> simp [esc] at h ⊢
  | cons y b ih =>
    match k with
    | 0 => cases a <;> simp [esc] at h
    | 1 => cases a <;> simp [esc] at h
    | k + 2 =>
      cases a with
      | nil => simp [esc] at h
      | cons x a =>
        simp only [esc, List.take_succ_cons, List.cons.injEq, true_and] at h
        obtain ⟨e1, e2⟩ := ih h.2
        refine ⟨by rw [h.1, e1], ?_⟩
        simp only [esc, List.length_cons]
        omega

theorem esc_inj {a b : Bytes} (h : esc a = esc b) : a = b :=
  (esc_take (k := (esc b).length) (by rw [List.take_length]; exact h)).1

/-- A lawful instance: the hash starts with the length, the tag is the key. -/
noncomputable def toyQ : Prims :=
  { toyP with
    sha := fun b => (le 8 b.length ++ b ++ zeros 32).take 32
    mac := fun k _ => (k ++ zeros 32).take 32
    encFile := fun f => esc (toyFile f)
    decFile := decoder (fun f => esc (toyFile f)) MapFile.InRange
    encMeta := fun m => esc (toyMeta m)
    decMeta := decoder (fun m => esc (toyMeta m)) AMeta.InRange }

theorem toyQ_lawful : toyQ.Lawful where
  xts := toy_lawful
  aead := toyAead_lawful
  sha_len b := by simp only [toyQ, List.length_take, List.length_append, le_length, zeros_length]; omega
  mac_len _ _ := by simp only [toyQ, List.length_take, List.length_append, zeros_length]; omega
  zdec_zenc _ b c h := by simp only [toyQ, toyP, Option.some.injEq] at h ⊢; exact h.symm
  decMap_encMap m h := decoder_enc (fun _ _ => encEntries_inj) m h
  decFile_encFile f h := decoder_enc (fun _ _ ha hb e => toyFile_inj ha hb (esc_inj e)) f h
  decMeta_encMeta m h := decoder_enc (fun _ _ ha hb e => toyMeta_inj ha hb (esc_inj e)) m h
  decFile_range := decoder_range
  decMeta_range := decoder_range

theorem toyQ_prefixFree : toyQ.PrefixFree where
  metaCut m k hk := by
    simp only [toyQ, decoder]
    rw [dif_neg]
    rintro ⟨a, -, e⟩
    have := (esc_take e).2
    simp only [toyQ] at hk
    omega
  fileCut f k hk := by
    simp only [toyQ, decoder]
    rw [dif_neg]
    rintro ⟨a, -, e⟩
    have := (esc_take e).2
    simp only [toyQ] at hk
    omega

/-- One written stripe of one sector; `x` tells the HMAC keys apart. -/
noncomputable def twCfg (x : UInt8) : Cfg where
  P := toyQ
  count := 1
  ssc := 1
  headers := [Metadata.WRITTEN]
  conc := 1
  comp := .none
  keys := none
  hkey := x :: zeros 31
  kek := ⟨.aes256Gcm, some (zeros 32), some [1]⟩
  nk := zeros 12
  nh := zeros 12

theorem twCfg_ok (x : UInt8) : (twCfg x).Ok where
  lawful := toyQ_lawful
  count := by simp [twCfg]
  ssc := by simp [twCfg]
  level := by simp [twCfg]
  keys := by simp [twCfg]
  hkey := by simp [twCfg]
  nk := by simp [twCfg]
  nh := by simp [twCfg]

theorem tw_made (x : UInt8) : makeObject (twCfg x) 0 demoBuf = .ok (some demoBuf) := by
  simp [makeObject, demoBuf, twCfg, compress, maybeEncrypt, maybeCrypt]

/-- The second run up to its first upload, and to its end by failure or success. -/
theorem tw_runs (x : UInt8) (st0 : Name → Option Bytes) :
    (∃ ls s k, Run (twCfg x) (St.init (twCfg x) st0) ls s ∧ (∀ id ok buf, Lab.fetched id ok buf ∈ ls → buf = demoBuf ∧ id = 0) ∧
      metadataName ∉ s.log ∧ s.store = st0 ∧ s.puts = [(objectKey (toyQ.sha demoBuf), demoBuf, k)] ∧ entries 1 s.hashes = [(0, .obj (toyQ.sha demoBuf))]) ∧
    (∃ ls s, Run (twCfg x) (St.init (twCfg x) st0) ls s ∧ (∀ id ok buf, Lab.fetched id ok buf ∈ ls → buf = demoBuf ∧ id = 0) ∧
      s.phase = .failed ∧ mappingName ∈ s.log ∧ s.store mappingName = st0 mappingName ∧ entries 1 s.hashes = [(0, .obj (toyQ.sha demoBuf))]) ∧
    ∃ ls s, Run (twCfg x) (St.init (twCfg x) st0) ls s ∧ (∀ id ok buf, Lab.fetched id ok buf ∈ ls → buf = demoBuf ∧ id = 0) ∧
      s.phase = .done ∧ s.hashes 0 = some (.obj (toyQ.sha demoBuf)) ∧ Lab.fetched 0 true demoBuf ∈ ls ∧
      entries 1 s.hashes = [(0, .obj (toyQ.sha demoBuf))] := by
  obtain ⟨b, hb⟩ : ∃ b, serializeMapping (twCfg x).P
      (entries (twCfg x).count (upd (fun _ => none) 0 (some (.obj (toyQ.sha demoBuf))))) (twCfg x).hkey
        (twCfg x).keys = .ok b := ⟨_, rfl⟩
  obtain ⟨m, hm⟩ : ∃ m, archiveMeta (twCfg x) = .ok m := ⟨_, rfl⟩
  have t0 : Run (twCfg x) (St.init (twCfg x) st0) [] (St.init (twCfg x) st0) := .nil _
  have t1 := t0.snoc (.start _ rfl (by simp [twCfg, St.init]) rfl (by simp [twCfg, St.init]) true)
  simp only [if_true, St.init] at t1
  have t5 := t1.snoc (.fetchDone _ rfl 0 (by simp) true demoBuf (by simp [twCfg, demoBuf]))
  simp only [if_true, upload, tw_made] at t5
  rw [if_neg (by simp)] at t5
  simp only [List.not_mem_nil, if_false, St.startPut] at t5
  have t6 := t5.snoc (.exec _ [] [] _ _ _ rfl)
  have t7 := t6.snoc (.putDone _ rfl [] [] _ _ true true rfl (fun _ => rfl))
  simp only [List.nil_append, decide_true, Nat.zero_add, Nat.zero_lt_one, Bool.and_self, if_true] at t7
  have t8 := t7.snoc (.finish _ rfl rfl (by simp) rfl)
  have hP : (twCfg x).P = toyQ := rfl
  simp only [hP] at hb t5 t8
  simp only [finish, hP, hb, hm, St.startPut] at t8
  have t9 := t8.snoc (.exec _ [] [] _ _ _ rfl)
  have t10 := t9.snoc (.metaDone _ rfl [] [] _ true true rfl (fun _ => rfl))
  simp only [if_true, publish, hP, hb, St.startPut, List.nil_append] at t10
  have t11 := t10.snoc (.exec _ [] [] _ _ _ rfl)
  have t12 := t11.snoc (.mapDone _ rfl [] [] _ true true rfl (fun _ => rfl))
  have f10 := t10.snoc (.timeout _ (.inr rfl))
  refine ⟨⟨_, _, _, t5, ?_, ?_, rfl, rfl, rfl⟩, ⟨_, _, f10, ?_, rfl, ?_, ?_, rfl⟩, ⟨_, _, t12, ?_, rfl, by simp, by simp, rfl⟩⟩
  · simp
  · simp [Ne.symm (objectKey_ne_metadata _)]
  · simp
  · simp [St.fail]
  · simp only [St.fail]
    rw [upd_ne _ _ (Ne.symm metadata_ne_mapping), upd_ne _ _ (Ne.symm (objectKey_ne_mapping _))]
  · simp

theorem tw_only {x : UInt8} {st0 : Name → Option Bytes} {ls : List Lab} {s : St} (h : Run (twCfg x) (St.init (twCfg x) st0) ls s)
    (hl : ∀ id ok buf, Lab.fetched id ok buf ∈ ls → buf = demoBuf ∧ id = 0) {o : Bytes} (ho : Made (twCfg x) s o) : o = demoBuf := by
  obtain ⟨id, buf, h1, h2⟩ := ho
  obtain ⟨rfl, rfl⟩ := hl _ _ _ ((got_iff h id buf).1 h1)
  rw [tw_made] at h2
  simpa using h2.symm

theorem take_le {a b : Nat} {x y : Bytes} (e : (le 8 a ++ x).take 32 = (le 8 b ++ y).take 32) : le 8 a = le 8 b := by
  have h : ∀ (u v : Bytes), u.length = 8 → ((u ++ v).take 32).take 8 = u := by
    intro u v hu
    rw [List.take_take, List.take_append_of_le_length (by omega), List.take_of_length_le (by omega)]
  rw [← h (le 8 a) x (by simp), ← h (le 8 b) y (by simp), e]

theorem tw_twice {x y : UInt8} (hxy : x ≠ y) {st0 : Name → Option Bytes} {ls ls' : List Lab} {s s' : St}
    (h : Run (twCfg x) (St.init (twCfg x) st0) ls s) (hl : ∀ id ok buf, Lab.fetched id ok buf ∈ ls → buf = demoBuf ∧ id = 0)
    (hd : s.phase = .done) (he : entries 1 s.hashes = [(0, .obj (toyQ.sha demoBuf))])
    (h' : Run (twCfg y) (St.init (twCfg y) s.store) ls' s') (hl' : ∀ id ok buf, Lab.fetched id ok buf ∈ ls' → buf = demoBuf ∧ id = 0)
    (he' : entries 1 s'.hashes = [(0, .obj (toyQ.sha demoBuf))]) : Twice (twCfg x) st0 ls s (twCfg y) ls' s' := by
  have hlen : (toyQ.encMap [(0, .obj (toyQ.sha demoBuf))]).length < 2 ^ 64 := by
    simp only [toyQ, toyP, encEntries, encSpec, List.length_append, List.length_cons, List.length_take, le_length, List.length_nil]
    omega
  refine ⟨twCfg_ok x, h, hd, ?_, twCfg_ok y, h', ?_, rfl, rfl, ?_, ?_, ?_⟩
  · show (toyQ.encMap (entries 1 s.hashes)).length < _; rw [he]; exact hlen
  · show (toyQ.encMap (entries 1 s'.hashes)).length < _; rw [he']; exact hlen
  · intro msg _ e
    simp only [twCfg, toyQ, List.cons_append, List.take_succ_cons, List.cons.injEq] at e
    exact hxy e.1.symm
  · intro d o k hd' ho e
    have h1 : d = demoBuf := by rcases hd' with g | g; exacts [tw_only h hl g, tw_only h' hl' g]
    have h2 := tw_only h hl ho
    subst h1; subst h2
    simp only [twCfg, toyQ, List.append_assoc] at e
    have := le_inj (n := 8) (by simp only [List.length_take, demoBuf, List.length_cons, zeros_length]; omega) (by simp [demoBuf]) (take_le e)
    rw [List.length_take] at this
    rw [List.take_of_length_le (by omega)]
  · exact fun o o' ho ho' _ => by rw [tw_only h' hl' ho, tw_only h' hl' ho']

/-- **C71 is false**: a second run fails after replacing metadata.json; afterwards the place holds neither archive. -/
theorem C71_false : ∃ c st0 ls s c' ls' s', Twice c st0 ls s c' ls' s' ∧ c.P.PrefixFree ∧ s'.phase = .failed ∧
    Presents c ls c.kek s.store ∧ ¬ PresentsOrFails c ls c.kek s'.store ∧ ¬ Presents c' ls' c.kek s'.store := by
  obtain ⟨-, -, ls, s, h1, h2, h3, -, -, h4⟩ := tw_runs 0 fun _ => none
  obtain ⟨-, ⟨ls', s', g1, g2, g3, g4, g5, g6⟩, -⟩ := tw_runs 1 s.store
  have ht := tw_twice (by decide) h1 h2 h3 h4 g1 g2 g6
  obtain ⟨e, he⟩ := C71_false_window ht g4 g5
  refine ⟨_, _, ls, s, _, ls', s', ht, toyQ_prefixFree, g3, ?_, ?_, ?_⟩
  · exact ⟨_, ht.opens_old rfl rfl, fun id len hid hlen => complete_says ht.ok h1 ht.complete ht.noCollision hid hlen (fun _ _ _ g _ => g)⟩
  · rintro ⟨src, hs, -⟩; rw [he] at hs; simp at hs
  · rintro ⟨src, hs, -⟩
    rw [ht.prims, he] at hs; simp at hs

/-- **C71 is false** in a directory also before the window: archiving the same data again empties an object of the old archive and
fills it again; a process that dies in between leaves the old archive with a stripe that cannot be read. -/
theorem C71_false_cut : ∃ c st0 ls s c' ls' s' st, Twice c st0 ls s c' ls' s' ∧ metadataName ∉ s'.log ∧ Left s' st ∧
    Presents c ls c.kek s.store ∧ ¬ Presents c ls c.kek st := by
  obtain ⟨-, -, ls, s, h1, h2, h3, h5, h6, h4⟩ := tw_runs 0 fun _ => none
  obtain ⟨⟨ls', s', k, g1, g2, g3, g4, g5, g6⟩, -, -⟩ := tw_runs 1 s.store
  have ht := tw_twice (by decide) h1 h2 h3 h4 g1 g2 g6
  refine ⟨_, _, ls, s, _, ls', s', upd s.store (objectKey (toyQ.sha demoBuf)) (some []), ht, g3, ?_, ?_, ?_⟩
  · intro n
    by_cases hn : n = objectKey (toyQ.sha demoBuf)
    · subst hn; exact .inr ⟨demoBuf, k, 0, by rw [g5]; simp, by simp⟩
    · exact .inl (by rw [upd_ne _ _ hn, g4])
  · exact ⟨_, ht.opens_old rfl rfl, fun id len hid hlen => complete_says ht.ok h1 ht.complete ht.noCollision hid hlen (fun _ _ _ g _ => g)⟩
  · rintro ⟨src, hs, hr⟩
    rw [ht.opens_old (by rw [upd_ne _ _ (Ne.symm (objectKey_ne_metadata _))]) (by rw [upd_ne _ _ (Ne.symm (objectKey_ne_mapping _))])] at hs
    simp only [Except.ok.injEq] at hs
    subst hs
    obtain ⟨r, hr, -⟩ := hr 0 512 (by simp [twCfg]) (by simp [twCfg])
    have htab : tableOf (entries (twCfg 0).count s.hashes) 0 = some (.obj (toyQ.sha demoBuf)) := by
      rw [tableOf_entries, if_pos (by simp [twCfg]), h5]
    have hne : toyQ.sha [] ≠ toyQ.sha demoBuf := by
      intro e
      simp only [toyQ, List.append_assoc] at e
      have := le_inj (n := 8) (by simp) (by simp [demoBuf]) (take_le e)
      simp [demoBuf] at this
    simp only [readStripe, htab, upd_same, finishFetch] at hr
    rw [if_pos (by exact hne)] at hr
    simp at hr

/-- The hypotheses of `C71_never_mixed`, `C71_old_kept_partial` and `C71_new_complete` are met by runs over the same place. -/
example : ∃ c st0 ls s c' ls1 s1 ls2 s2, Twice c st0 ls s c' ls1 s1 ∧ metadataName ∉ s1.log ∧ s1.puts ≠ [] ∧ c.P.PrefixFree ∧
    Twice c st0 ls s c' ls2 s2 ∧ s2.phase = .done := by
  obtain ⟨-, -, ls, s, h1, h2, h3, h5, h6, h4⟩ := tw_runs 0 fun _ => none
  obtain ⟨⟨ls', s', k, g1, g2, g3, g4, g5, g6⟩, -, ⟨ls2, s2, e1, e2, e3, -, -, e6⟩⟩ := tw_runs 1 s.store
  exact ⟨_, _, ls, s, _, ls', s', ls2, s2, tw_twice (by decide) h1 h2 h3 h4 g1 g2 g6, g3, by rw [g5]; simp, toyQ_prefixFree,
    tw_twice (by decide) h1 h2 h3 h4 e1 e2 e6, e3⟩

end Verif.Archive
