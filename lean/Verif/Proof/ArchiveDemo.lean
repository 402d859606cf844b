import Verif.Proof.Archive
import Verif.Props.Crypt

/-! A lawful instance of the archive's libraries, and runs of the archiver. -/

set_option maxRecDepth 8000

namespace Verif.Archive
open Verif Verif.Crypt Verif.Disk

/-! ### Encodings -/

def encSpec : Spec → Bytes
  | .zero => 0 :: zeros 32
  | .obj h => 1 :: h

def encEntries : List (Nat × Spec) → Bytes
  | [] => []
  | (k, v) :: m => le 8 k ++ (encSpec v ++ encEntries m)

def toyFile (f : MapFile) : Bytes := lenPrefixed f.domain ++ (f.tag ++ (le 4 f.version ++ (le 8 f.plaintextLen ++ f.ciphertext)))
def toyMeta (m : AMeta) : Bytes := lenPrefixed m.hmacKey ++ (lenPrefixed m.hmac ++ metaInput m)

theorem lenPrefixed_inj {a b x y : Bytes} (ha : a.length < 2 ^ 64) (hb : b.length < 2 ^ 64)
    (h : lenPrefixed a ++ x = lenPrefixed b ++ y) : a = b ∧ x = y := by
  simp only [lenPrefixed, List.append_assoc] at h
  obtain ⟨h3, h⟩ := List.append_inj h (by simp)
  have e3 := le_inj (n := 8) (by simpa using ha) (by simpa using hb) h3
  exact List.append_inj h e3

theorem encSpec_length {v : Spec} (h : ∀ x, v = .obj x → x.length = 32) : (encSpec v).length = 33 := by
  cases v with
  | zero => simp [encSpec]
  | obj x => simp [encSpec, h x rfl]

theorem encEntries_inj {a b : List (Nat × Spec)} (ha : MapInRange a) (hb : MapInRange b) (h : encEntries a = encEntries b) : a = b := by
  induction a generalizing b with
  | nil =>
    cases b with
    | nil => rfl
    | cons e b =>
      have := congrArg List.length h
      simp [encEntries] at this
      omega
  | cons e a ih =>
    cases b with
    | nil =>
      have := congrArg List.length h
      simp [encEntries] at this
    | cons e' b =>
      obtain ⟨k, v⟩ := e
      obtain ⟨k', v'⟩ := e'
      obtain ⟨r1, r2⟩ := ha _ (.head _)
      obtain ⟨r3, r4⟩ := hb _ (.head _)
      simp only [encEntries] at h
      obtain ⟨h1, h⟩ := List.append_inj h (by simp)
      obtain ⟨h2, h⟩ := List.append_inj h (by rw [encSpec_length r2, encSpec_length r4])
      have e1 := le_inj (n := 8) (by simpa using r1) (by simpa using r3) h1
      have e2 : v = v' := by
        cases v with
        | zero => cases v' with
          | zero => rfl
          | obj x => simp [encSpec] at h2
        | obj x => cases v' with
          | zero => simp [encSpec] at h2
          | obj y => simp only [encSpec, List.cons.injEq, true_and] at h2; rw [h2]
      rw [e1, e2, ih (fun x hx => ha x (.tail _ hx)) (fun x hx => hb x (.tail _ hx)) h]

theorem toyFile_inj {a b : MapFile} (ha : a.InRange) (hb : b.InRange) (h : toyFile a = toyFile b) : a = b := by
  obtain ⟨h1, h⟩ := lenPrefixed_inj ha.domain hb.domain h
  obtain ⟨h2, h⟩ := List.append_inj h (by rw [ha.tag, hb.tag])
  obtain ⟨h3, h⟩ := List.append_inj h (by simp)
  obtain ⟨h4, h⟩ := List.append_inj h (by simp)
  have e3 := le_inj (n := 4) (by simpa using ha.version) (by simpa using hb.version) h3
  have e4 := le_inj (n := 8) (by simpa using ha.len) (by simpa using hb.len) h4
  cases a; cases b; simp_all

theorem toyMeta_inj {a b : AMeta} (ha : a.InRange) (hb : b.InRange) (h : toyMeta a = toyMeta b) : a = b := by
  obtain ⟨h1, h⟩ := lenPrefixed_inj ha.hmacKey hb.hmacKey h
  obtain ⟨h2, h⟩ := lenPrefixed_inj ha.hmac hb.hmac h
  obtain ⟨h3, h4, h5, h6⟩ := metaInput_inj ha hb h
  cases a; cases b; simp_all

/-- The decoder of an encoding, for values satisfying `R`. -/
noncomputable def decoder {α} (enc : α → Bytes) (R : α → Prop) (b : Bytes) : Option α :=
  open Classical in if h : ∃ a, R a ∧ enc a = b then some h.choose else none

theorem decoder_enc {α} {enc : α → Bytes} {R : α → Prop} (hi : ∀ a b, R a → R b → enc a = enc b → a = b) (a : α) (ha : R a) :
    decoder enc R (enc a) = some a := by
  have h : ∃ a', R a' ∧ enc a' = enc a := ⟨a, ha, rfl⟩
  rw [decoder, dif_pos h]
  exact congrArg some (hi _ _ h.choose_spec.1 ha h.choose_spec.2)

theorem decoder_range {α} {enc : α → Bytes} {R : α → Prop} (b : Bytes) (a : α) (h : decoder enc R b = some a) : R a := by
  unfold decoder at h
  split at h
  · rename_i hx
    simp only [Option.some.injEq] at h
    rw [← h]; exact hx.choose_spec.1
  · simp at h

/-- A lawful instance: the hash is the first 32 bytes, the tag a constant, compression the identity. -/
noncomputable def toyP : Prims where
  sha b := (b ++ zeros 32).take 32
  mac _ _ := zeros 32
  xts := toy
  aead := toyAead
  zenc _ b := some b
  zdec b := some b
  encMap := encEntries
  decMap := decoder encEntries MapInRange
  encFile := toyFile
  decFile := decoder toyFile MapFile.InRange
  encMeta := toyMeta
  decMeta := decoder toyMeta AMeta.InRange

theorem toyP_lawful : toyP.Lawful where
  xts := toy_lawful
  aead := toyAead_lawful
  sha_len b := by simp [toyP]
  mac_len _ _ := by simp [toyP]
  zdec_zenc _ b c h := by simp only [toyP, Option.some.injEq] at h ⊢; exact h.symm
  decMap_encMap m h := decoder_enc (fun _ _ => encEntries_inj) m h
  decFile_encFile f h := decoder_enc (fun _ _ => toyFile_inj) f h
  decMeta_encMeta m h := decoder_enc (fun _ _ => toyMeta_inj) m h
  decFile_range := decoder_range
  decMeta_range := decoder_range

/-! ### A complete run -/

/-- Three stripes of one sector: the first written, the second neither written nor in the source, the third in the
source. -/
noncomputable def demoCfg : Cfg where
  P := toyP
  count := 3
  ssc := 1
  headers := [Metadata.WRITTEN, 0, Metadata.HAS_SOURCE]
  conc := 2
  comp := .none
  keys := none
  hkey := zeros 32
  kek := ⟨.aes256Gcm, some (zeros 32), some [1]⟩
  nk := zeros 12
  nh := zeros 12

def demoBuf : Bytes := 7 :: zeros 511

theorem demo_made : makeObject demoCfg 0 demoBuf = .ok (some demoBuf) := by
  simp [makeObject, demoBuf, demoCfg, compress, maybeEncrypt, maybeCrypt]

theorem demo_zero : makeObject demoCfg 2 (zeros 512) = .ok none := by
  have : (zeros 512).all (· == 0) = true := by simp [zeros]
  simp only [makeObject, this, if_true]

/-- The state after both stripes have been fetched and the upload is complete. -/
theorem demo_run (st0 : Name → Option Bytes) : ∃ s,
    Run demoCfg (St.init demoCfg st0)
      ([.tau] ++ [.tau] ++ [.tau] ++ [.fetched 2 true (zeros 512)] ++ [.fetched 0 true demoBuf] ++ [.tau] ++
        [.uploaded (objectKey (toyP.sha demoBuf)) true] ++ [.tau] ++ [.tau] ++ [.uploaded metadataName true] ++ [.tau] ++
        [.uploaded mappingName true]) s ∧ s.phase = .done ∧
    s.hashes = upd (upd (fun _ => none) 2 (some .zero)) 0 (some (.obj (toyP.sha demoBuf))) ∧
    s.got = upd (upd (fun _ => none) 2 (some (zeros 512))) 0 (some demoBuf) := by
  obtain ⟨b, hb⟩ : ∃ b, serializeMapping demoCfg.P
      (entries demoCfg.count (upd (upd (fun _ => none) 2 (some .zero)) 0 (some (.obj (toyP.sha demoBuf))))) demoCfg.hkey
        demoCfg.keys = .ok b := ⟨_, rfl⟩
  obtain ⟨m, hm⟩ : ∃ m, archiveMeta demoCfg = .ok m := ⟨_, rfl⟩
  have t0 : Run demoCfg (St.init demoCfg st0) [] (St.init demoCfg st0) := .nil _
  have t1 := t0.snoc (.start _ rfl (by simp [demoCfg, St.init]) rfl (by simp [demoCfg, St.init]) true)
  have t2 := t1.snoc (.skip _ rfl (by simp [demoCfg, St.init]) rfl)
  have t3 := t2.snoc (.start _ rfl (by simp [demoCfg, St.init]) rfl (by simp [demoCfg, St.init]) true)
  simp only [if_true, St.init] at t3
  have t4 := t3.snoc (.fetchDone _ rfl 2 (by simp) true (zeros 512) (by simp [demoCfg]))
  simp only [if_true, upload, demo_zero] at t4
  rw [if_neg (by simp)] at t4
  simp only at t4
  have t5 := t4.snoc (.fetchDone _ rfl 0 (by simp) true demoBuf (by simp [demoCfg, demoBuf]))
  simp only [if_true, upload, demo_made] at t5
  rw [if_neg (by simp)] at t5
  simp only [List.not_mem_nil, if_false, St.startPut] at t5
  have t6 := t5.snoc (.exec _ [] [] _ _ _ rfl)
  have t7 := t6.snoc (.putDone _ rfl [] [] _ _ true true rfl (fun _ => rfl))
  simp only [List.nil_append, decide_true, Nat.zero_add, Nat.zero_lt_one, Bool.and_self, if_true] at t7
  have t8 := t7.snoc (.finish _ rfl rfl (by simp) rfl)
  simp only [finish, hb, hm, St.startPut] at t8
  have t9 := t8.snoc (.exec _ [] [] _ _ _ rfl)
  have t10 := t9.snoc (.metaDone _ rfl [] [] _ true true rfl (fun _ => rfl))
  simp only [if_true, publish, hb, St.startPut, List.nil_append] at t10
  have t11 := t10.snoc (.exec _ [] [] _ _ _ rfl)
  have t12 := t11.snoc (.mapDone _ rfl [] [] _ true true rfl (fun _ => rfl))
  exact ⟨_, t12, rfl, rfl, rfl⟩

end Verif.Archive
