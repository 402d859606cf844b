import Verif.Model.Archive
import Verif.Proof.Crypt

/-! Lemmas about names, framing, authenticated encodings and the mapping file. -/

set_option maxRecDepth 8000

namespace Verif.Archive
open Verif Verif.Crypt Verif.Disk

/-! ### Names -/

theorem hexDigit_inj : ∀ a b : Fin 16, hexDigit a.val = hexDigit b.val → a = b := by decide

theorem hexDigit_inj' {a b : Nat} (ha : a < 16) (hb : b < 16) (h : hexDigit a = hexDigit b) : a = b :=
  Fin.mk.inj_iff.1 (hexDigit_inj ⟨a, ha⟩ ⟨b, hb⟩ h)

theorem hex_inj {a b : Bytes} (h : hex a = hex b) : a = b := by
  induction a generalizing b with
  | nil =>
    cases b with
    | nil => rfl
    | cons y b => simp [hex] at h
  | cons x a ih =>
    cases b with
    | nil => simp [hex] at h
    | cons y b =>
      simp only [hex, List.flatMap_cons, List.cons_append, List.nil_append, List.cons.injEq] at h
      obtain ⟨h1, h2, h3⟩ := h
      have hx := x.toNat_lt
      have hy := y.toNat_lt
      have e1 := hexDigit_inj' (by omega) (by omega) h1
      have e2 := hexDigit_inj' (by omega) (by omega) h2
      have : x = y := UInt8.toNat_inj.1 (by omega)
      rw [this, ih h3]

theorem objectKey_inj {a b : Bytes} (h : objectKey a = objectKey b) : a = b := hex_inj (List.append_cancel_left h)

theorem objectKey_ne_metadata (h : Bytes) : objectKey h ≠ metadataName := by
  intro e
  have := congrArg List.head? e
  simp [objectKey, metadataName] at this

theorem objectKey_ne_mapping (h : Bytes) : objectKey h ≠ mappingName := by
  intro e
  have := congrArg List.head? e
  simp [objectKey, mappingName] at this

theorem metadata_ne_mapping : metadataName ≠ mappingName := by decide

/-! ### Framing -/

theorem frame_ok {c f : Bytes} (h : frame c = .ok f) :
    c.length < 2 ^ 32 ∧ f = le 4 c.length ++ c ++ zeros ((512 - (4 + c.length) % 512) % 512) := by
  simp only [frame] at h
  split at h
  · simp only [List.length_append, le_length, Except.ok.injEq] at h
    exact ⟨by assumption, h.symm⟩
  · simp at h

theorem unframe_frame {c f : Bytes} (h : frame c = .ok f) : unframe f = .ok c := by
  obtain ⟨h1, rfl⟩ := frame_ok h
  have ht : (le 4 c.length ++ c ++ zeros ((512 - (4 + c.length) % 512) % 512)).take 4 = le 4 c.length := by
    rw [List.append_assoc, List.take_append_of_le_length (by simp), List.take_of_length_le (by simp)]
  have hn : fromLe (le 4 c.length) = c.length := fromLe_le_of_lt (by simpa using h1)
  simp only [unframe, ht, hn, List.length_append, le_length, zeros_length]
  rw [if_neg (by omega), if_neg (by omega)]
  simp only [slice, List.append_assoc]
  rw [List.drop_append, List.drop_of_length_le (by simp)]
  simp

theorem frame_length {c f : Bytes} (h : frame c = .ok f) : f.length % 512 = 0 := by
  obtain ⟨h1, rfl⟩ := frame_ok h
  simp; omega

theorem decompress_compress {P : Prims} (hP : P.Lawful) {c : Comp} {d z : Bytes} (h : compress P c d = .ok z) :
    decompress P c z = .ok d ∧ z.length % 512 = 0 := by
  simp only [compress] at h
  split at h
  · simp at h
  · rename_i hd
    cases c with
    | none =>
      simp only [Except.ok.injEq] at h
      subst h
      simpa [decompress] using hd
    | zstd l =>
      simp only at h
      split at h
      · rename_i x hx
        refine ⟨?_, frame_length h⟩
        simp only [decompress, unframe_frame h, hP.zdec_zenc _ _ _ hx, hd, if_false]
      · simp at h

/-! ### Authenticated encodings -/

theorem metaInput_inj {a b : AMeta} (ha : a.InRange) (hb : b.InRange) (h : metaInput a = metaInput b) :
    a.version = b.version ∧ a.ssc = b.ssc ∧ a.encKey = b.encKey ∧ a.comp = b.comp := by
  simp only [metaInput, List.append_assoc] at h
  have h := List.append_cancel_left h
  obtain ⟨h1, h⟩ := List.append_inj h (by simp)
  obtain ⟨h2, h⟩ := List.append_inj h (by simp)
  have e1 := le_inj (n := 4) (by simpa using ha.version) (by simpa using hb.version) h1
  have e2 := le_inj (n := 8) (by simpa using ha.ssc) (by simpa using hb.ssc) h2
  have hc : ∀ {x y : Comp}, (∀ l, x = .zstd l → l < 2 ^ 32) → (∀ l, y = .zstd l → l < 2 ^ 32) → compField x = compField y → x = y := by
    intro x y hx hy h
    cases x with
    | none => cases y with
      | none => rfl
      | zstd l => simp [compField] at h
    | zstd l => cases y with
      | none => simp [compField] at h
      | zstd l' =>
        simp only [compField, List.cons.injEq, true_and] at h
        rw [le_inj (n := 4) (by simpa using hx l rfl) (by simpa using hy l' rfl) h]
  refine ⟨e1, e2, ?_⟩
  cases ka : a.encKey with
  | none =>
    cases kb : b.encKey with
    | none =>
      simp only [ka, kb, keyField, List.cons_append, List.nil_append, List.cons.injEq, true_and] at h
      exact ⟨rfl, hc ha.level hb.level h⟩
    | some k => simp [ka, kb, keyField] at h
  | some k =>
    cases kb : b.encKey with
    | none => simp [ka, kb, keyField] at h
    | some k' =>
      simp only [ka, kb, keyField, lenPrefixed, List.cons_append, List.cons.injEq, true_and, List.append_assoc] at h
      obtain ⟨h3, h⟩ := List.append_inj h (by simp)
      have e3 := le_inj (n := 8) (by simpa using ha.key k ka) (by simpa using hb.key k' kb) h3
      obtain ⟨h4, h⟩ := List.append_inj h e3
      exact ⟨by rw [h4], hc ha.level hb.level h⟩

theorem mapInput_inj {v v' n n' : Nat} {p p' : Bytes} (h1 : v < 2 ^ 32) (h2 : v' < 2 ^ 32) (h3 : n < 2 ^ 64) (h4 : n' < 2 ^ 64)
    (h : mapInput mapDomain v n p = mapInput mapDomain v' n' p') : v = v' ∧ n = n' ∧ p = p' := by
  simp only [mapInput, List.append_assoc] at h
  have h := List.append_cancel_left h
  obtain ⟨e1, h⟩ := List.append_inj h (by simp)
  obtain ⟨e2, h⟩ := List.append_inj h (by simp)
  exact ⟨le_inj (n := 4) (by simpa using h1) (by simpa using h2) e1, le_inj (n := 8) (by simpa using h3) (by simpa using h4) e2, h⟩

/-- The two kinds of authenticated strings never coincide. -/
theorem metaInput_ne_mapInput (m : AMeta) (v n : Nat) (p : Bytes) : metaInput m ≠ mapInput mapDomain v n p := by
  intro h
  have := congrArg List.head? h
  simp [metaInput, mapInput, metaDomain, mapDomain] at this

/-! ### The mapping file -/

theorem sectorAt_inj {a b : Bytes} (hl : a.length = b.length) (hm : a.length % 512 = 0)
    (h : ∀ j, j < a.length / 512 → sectorAt a j = sectorAt b j) : a = b := by
  apply List.ext_getElem?
  intro i
  rcases Nat.lt_or_ge i a.length with hi | hi
  · have hj : i / 512 < a.length / 512 := by omega
    have := congrArg Subtype.val (h _ hj)
    have hb1 : (i / 512 + 1) * 512 ≤ a.length := by omega
    have hb2 : (i / 512 + 1) * 512 ≤ b.length := by omega
    simp only [sectorAt, hb1, hb2, dif_pos] at this
    have := congrArg (·[i % 512]?) this
    simp only [slice_getElem?, Nat.mod_lt i (by omega : 0 < 512), if_true] at this
    rwa [show i / 512 * 512 + i % 512 = i by omega] at this
  · rw [List.getElem?_eq_none hi, List.getElem?_eq_none (by omega)]

/-- Decryption inverts encryption of whole sectors. -/
theorem decrypt_encrypt {p : Xts} {k : Keys} (hp : p.Lawful) {b ct : Bytes} {start : Nat} (hm : b.length % 512 = 0)
    (h : encrypt p k b start (b.length / 512) = .ok ct) :
    ct.length = b.length ∧ decrypt p k ct start (ct.length / 512) = .ok b := by
  obtain ⟨out, h1, h2, h3, -⟩ := encrypt_ok (p := p) (k := k) (buf := b) (start := start) (count := b.length / 512) hp
    (Nat.div_mul_le_self _ _)
  rw [h1] at h
  simp only [Except.ok.injEq] at h
  subst h
  obtain ⟨r, g1, g2, g3, -⟩ := decrypt_ok (p := p) (k := k) (buf := out) (start := start) (count := out.length / 512) hp
    (Nat.div_mul_le_self _ _)
  refine ⟨h2, ?_⟩
  rw [g1]
  congr 1
  refine sectorAt_inj (g2.trans h2) (by omega) fun j hj => ?_
  rw [g3 j (by omega), h3 j (by omega), (inverse hp k).1]

theorem padToSector_length (b : Bytes) : (padToSector b).length % 512 = 0 := by
  simp [padToSector]; omega

theorem padToSector_take (b : Bytes) : (padToSector b).take b.length = b := by simp [padToSector]

theorem mapping_round_trip {P : Prims} (hP : P.Lawful) {es : List (Nat × Spec)} {hkey : Bytes} {keys : Option Keys} {b : Bytes}
    (hm : MapInRange es) (hl : (P.encMap es).length < 2 ^ 64)
    (h : serializeMapping P es hkey keys = .ok b) : deserializeMapping P b hkey keys = .ok es := by
  simp only [serializeMapping] at h
  split at h
  · simp at h
  · rename_i ct hct
    simp only [Except.ok.injEq] at h
    subst h
    have hpl := padToSector_length (P.encMap es)
    have key : ct.length % 512 = 0 ∧
        maybeCrypt (fun k => decrypt P.xts k ct mapSector (ct.length / 512)) keys ct = .ok (padToSector (P.encMap es)) := by
      cases keys with
      | none =>
        simp only [maybeCrypt, Except.ok.injEq] at hct
        subst hct
        exact ⟨hpl, rfl⟩
      | some k =>
        simp only [maybeCrypt, liftCrypt] at hct
        split at hct
        · rename_i a ha
          simp only [Except.ok.injEq] at hct
          subst hct
          obtain ⟨e1, e2⟩ := decrypt_encrypt hP.xts hpl ha
          exact ⟨by omega, by simp only [maybeCrypt, e2, liftCrypt]⟩
        · simp at hct
        · simp at hct
    have hle : ¬ (P.encMap es).length > (padToSector (P.encMap es)).length := by simp [padToSector]
    have hrange : (MapFile.mk mapDomain 1 ct (P.encMap es).length
        (P.mac hkey (mapInput mapDomain 1 (P.encMap es).length ct))).InRange :=
      ⟨by show 1 < 2 ^ 32; decide, hl, by show mapDomain.length < 2 ^ 64; decide, hP.mac_len _ _⟩
    simp only [deserializeMapping, hP.decFile_encFile _ hrange, ne_eq, not_true_eq_false, if_false, key.1, verifyTag, if_true, key.2,
      if_neg hle, padToSector_take, hP.decMap_encMap _ hm]

theorem tableOf_append (l : List (Nat × Spec)) (kv : Nat × Spec) (i : Nat) :
    tableOf (l ++ [kv]) i = if i = kv.1 then some kv.2 else tableOf l i := by
  simp [tableOf, upd]

/-- Looking up a stripe in the serialised entries is looking it up in the map. -/
theorem tableOf_entries (n : Nat) (m : Nat → Option Spec) (i : Nat) :
    tableOf (entries n m) i = if i < n then m i else none := by
  induction n with
  | zero => rfl
  | succ n ih =>
    simp only [entries, List.range_succ, List.filterMap_append] at ih ⊢
    cases hm : m n with
    | none =>
      simp only [List.filterMap_cons, hm, Option.map_none, List.filterMap_nil, List.append_nil, ih]
      by_cases h1 : i < n
      · rw [if_pos h1, if_pos (by omega)]
      · rw [if_neg h1]
        by_cases h2 : i = n
        · subst h2; simp [hm]
        · rw [if_neg (by omega)]
    | some v =>
      simp only [List.filterMap_cons, hm, Option.map_some, List.filterMap_nil, tableOf_append, ih]
      by_cases h2 : i = n
      · subst h2; simp [hm]
      · rw [if_neg h2]
        by_cases h1 : i < n
        · rw [if_pos h1, if_pos (by omega)]
        · rw [if_neg h1, if_neg (by omega)]

end Verif.Archive
