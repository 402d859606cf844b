import Verif.Props.Remote
import Verif.Props.Lazy
import Verif.Props.LazySafety

/-! # C35, C36: serving legacy volumes, and moving a volume through a stripe server -/

set_option maxRecDepth 8000

namespace Verif.Remote
open Verif Verif.Metadata Verif.Disk

/-! ## C35 -/

theorem flags_translate (l : UInt8) :
    flagsOf (translateHeader l) = if l = 0 then ⟨false, false, true⟩ else ⟨false, true, false⟩ := by
  unfold translateHeader
  split <;> rfl

theorem divCeil_le {a b x : Nat} (hb : 0 < b) (hx : x < a) : x / b < divCeil a b := by
  unfold divCeil
  have h1 : x / b * b ≤ x := Nat.div_mul_le_self x b
  rw [Nat.lt_iff_add_one_le, Nat.le_div_iff_mul_le hb, Nat.add_mul]
  omega

theorem zipWith_snd {α β γ} (f : β → γ) : ∀ (l : List α) (l' : List β), l.length = l'.length → List.zipWith (fun _ b => f b) l l' = l'.map f
  | [], [], _ => rfl
  | _ :: l, _ :: l', h => by
    simp only [List.zipWith_cons_cons, List.map_cons]
    rw [zipWith_snd f l l' (by simpa using h)]

/-- **C35** Which byte strings are accepted, and what they become: one stripe per `2^shift` sectors of the disk (rounded
up), a stripe with header zero marked as still in the image and nothing else, any other stripe marked as written and
nothing else. Every other byte string is rejected with an error; nothing is indexed out of range. -/
theorem C35_translation (buf : Bytes) (n : Nat) :
    (∃ m, translate buf n = .ok m ∧ 512 ≤ buf.length ∧ m.shift.toNat ≤ 16 ∧ some m.shift = buf[13]? ∧
      m.headers.length = (n + 2 ^ m.shift.toNat - 1) / 2 ^ m.shift.toNat ∧ 512 + m.headers.length ≤ buf.length ∧
      ∀ k, k < m.headers.length → ∃ l h, buf[512 + k]? = some l ∧ m.headers[k]? = some h ∧
        flagsOf h = if l = 0 then ⟨false, false, true⟩ else ⟨false, true, false⟩) ∨
    (∃ e, translate buf n = .error e ∧ e ≠ .panic ∧
      (buf.length < 512 ∨ ∃ s, buf[13]? = some s ∧ (16 < s.toNat ∨ buf.length < 512 + (n + 2 ^ s.toNat - 1) / 2 ^ s.toNat))) := by
  unfold translate
  by_cases h1 : buf.length < 512
  · right; exact ⟨_, if_pos h1, by decide, .inl h1⟩
  · rw [if_neg h1]
    have h13 : 13 < buf.length := by omega
    rw [List.getElem?_eq_getElem h13]
    simp only
    generalize buf[13] = s
    by_cases h2 : s.toNat > MAX_LEGACY_SHIFT
    · right; exact ⟨_, if_pos h2, by decide, .inr ⟨s, rfl, .inl h2⟩⟩
    · rw [if_neg h2]
      by_cases h3 : divCeil n (2 ^ s.toNat) > buf.length - 512
      · right
        refine ⟨_, if_pos h3, by decide, .inr ⟨s, rfl, .inr ?_⟩⟩
        unfold divCeil at h3; omega
      · rw [if_neg h3, if_neg (by omega)]
        left
        have hlen : (slice buf 512 (divCeil n (2 ^ s.toNat))).length = divCeil n (2 ^ s.toNat) := by
          simp only [slice, List.length_take, List.length_drop]; omega
        have hz : List.zipWith (fun _ l => translateHeader l) (Meta.new s (divCeil n (2 ^ s.toNat)) 0).headers (slice buf 512 (divCeil n (2 ^ s.toNat)))
            = (slice buf 512 (divCeil n (2 ^ s.toNat))).map translateHeader :=
          zipWith_snd _ _ _ (by rw [hlen]; simp [Meta.new])
        refine ⟨_, rfl, by omega, by simpa [Meta.new, MAX_LEGACY_SHIFT] using h2, rfl, ?_, ?_, ?_⟩
        · show (List.zipWith _ _ _).length = _
          rw [hz, List.length_map, hlen]; rfl
        · show 512 + (List.zipWith _ _ _).length ≤ _
          rw [hz, List.length_map, hlen]; omega
        · intro k hk
          have hk : k < (List.zipWith (fun _ l => translateHeader l) (Meta.new s (divCeil n (2 ^ s.toNat)) 0).headers
            (slice buf 512 (divCeil n (2 ^ s.toNat)))).length := hk
          rw [hz, List.length_map, hlen] at hk
          have hkb : 512 + k < buf.length := by omega
          refine ⟨buf[512 + k], translateHeader buf[512 + k], List.getElem?_eq_getElem hkb, ?_, flags_translate _⟩
          show (List.zipWith _ _ _)[k]? = _
          rw [hz, List.getElem?_map]
          have : (slice buf 512 (divCeil n (2 ^ s.toNat)))[k]? = some buf[512 + k] := by
            simp only [slice]
            rw [List.getElem?_take, if_pos hk, List.getElem?_drop, List.getElem?_eq_getElem hkb]
          rw [this]; rfl

/-- **C35** Every sector of a served legacy volume comes from where its data live: the image if the stripe's header is
zero, the disk otherwise. -/
theorem C35_served (buf : Bytes) (n : Nat) (m : Meta) (hm : translate buf n = .ok m) (s : Srv) (im : Nat → Bytes) (hmd : s.md = m)
    (him : s.src = some im) (x : Nat) (hx : x < n) :
    ∃ l, buf[512 + x / 2 ^ m.shift.toNat]? = some l ∧ s.volume.sector x = (if l = 0 then im x else s.dev x) ∧
      s.volume.answer (x / 2 ^ m.shift.toNat) = .data (s.volume.stripe (x / 2 ^ m.shift.toNat)) := by
  rcases C35_translation buf n with ⟨m', h0, h1, h2, h3, h4, h5, h6⟩ | ⟨e, h0, -⟩
  · rw [hm, Except.ok.injEq] at h0
    subst h0
    obtain ⟨l, h, h7, h8, h9⟩ := h6 (x / 2 ^ m.shift.toNat) (by rw [h4]; exact divCeil_le (Nat.two_pow_pos _) hx)
    subst hmd
    refine ⟨l, h7, ?_, ?_⟩
    · obtain ⟨c1, c2⟩ := C31_sector s x h h8
      by_cases hl : l = 0
      · rw [if_pos hl] at h9 ⊢
        exact c1 im him (by rw [h9]) (by rw [h9])
      · rw [if_neg hl] at h9 ⊢
        exact c2 (.inl (by rw [h9]))
    · rw [C31_data_iff]
      refine ⟨rfl, h, h8, ?_, fun _ _ => by rw [him]; simp⟩
      by_cases hl : l = 0
      · rw [if_pos hl] at h9; rw [h9]; exact .inr rfl
      · rw [if_neg hl] at h9; rw [h9]; exact .inl rfl
  · rw [hm] at h0; simp at h0

/-- **C35** Nothing the current format accepts is taken for a legacy volume. -/
theorem C35_current_not_legacy (buf : Bytes) (m : Meta) (h : fromBytes buf = .ok m) (n : Nat) : loadForServing buf n = .ok m := by
  have hl : isLegacy buf = false := by
    have hv : slice buf 9 2 = versionMajor := by
      unfold fromBytes at h
      split at h
      · simp at h
      · split at h
        · simp at h
        · split at h
          · simp at h
          · simp only at h
            split at h
            · simp at h
            · split at h
              · simp at h
              · rename_i hv
                exact Decidable.not_not.1 fun hn => hv (.inl hn)
    have h9 : buf.getD 9 0 = 2 := by
      have : (slice buf 9 2)[0]? = some 2 := by rw [hv]; rfl
      simp only [slice] at this
      rw [List.getElem?_take, if_pos (by decide), List.getElem?_drop] at this
      rw [List.getD_eq_getElem?_getD, this]; rfl
    unfold isLegacy
    rw [h9]
    simp
  unfold loadForServing
  rw [hl, h]
  rfl

/-- **C35** A legacy volume with stripes only in an image that is not configured is refused, not served. -/
theorem C35_image_needed (buf : Bytes) (n : Nat) (track : Bool) (m : Meta) (hl : isLegacy buf = true) (hm : translate buf n = .ok m)
    (k : Nat) (hk : k < m.headers.length) (hz : buf[512 + k]? = some 0) : prepare (some buf) n none track = .error .noSource := by
  rcases C35_translation buf n with ⟨m', h0, h1, h2, h3, h4, h5, h6⟩ | ⟨e, h0, -⟩
  · rw [hm, Except.ok.injEq] at h0
    subst h0
    obtain ⟨l, h, h7, h8, h9⟩ := h6 k hk
    rw [hz, Option.some.injEq] at h7
    subst h7
    rw [if_pos rfl] at h9
    have hnf : hasFetchedAll m = false := by
      unfold hasFetchedAll
      rw [List.all_eq_false]
      refine ⟨h, List.mem_of_getElem? h8, ?_⟩
      have e1 : ((h &&& HAS_SOURCE) == 0) = false := by
        have := has_source h
        rw [h9] at this
        simpa [has, bne] using this
      have e2 : ((h &&& FETCHED) != 0) = false := by
        have := has_fetched h
        rw [h9] at this
        exact this
      rw [e1, e2]; decide
    simp only [prepare, loadForServing, hl, if_true, hm, bind, Except.bind, hnf]
    rfl
  · rw [hm] at h0; simp at h0

/-- **C35** What is taken for a legacy volume: metadata that begin with the magic and version 0.0, and nothing else. -/
theorem C35_legacy_iff (buf : Bytes) : isLegacy buf = true ↔ ∃ rest, buf = magicBytes ++ [0, 0] ++ rest := by
  have hm : magicBytes.length = 9 := by decide
  unfold isLegacy
  simp only [Bool.and_eq_true, decide_eq_true_eq, beq_iff_eq]
  constructor
  · rintro ⟨⟨⟨h1, h2⟩, h3⟩, h4⟩
    refine ⟨buf.drop 11, ?_⟩
    have hs : buf = buf.take 9 ++ buf.drop 9 := (List.take_append_drop 9 buf).symm
    have e9 : buf.drop 9 = buf[9] :: buf.drop 10 := List.drop_eq_getElem_cons (by omega)
    have e10 : buf.drop 10 = buf[10] :: buf.drop 11 := List.drop_eq_getElem_cons (by omega)
    rw [List.getD_eq_getElem?_getD, List.getElem?_eq_getElem (by omega), Option.getD_some] at h3 h4
    rw [e9, e10, h3, h4, h2] at hs
    rw [List.append_assoc]
    exact hs
  · rintro ⟨rest, rfl⟩
    refine ⟨⟨⟨by simp [hm]; omega, ?_⟩, ?_⟩, ?_⟩
    · rw [List.append_assoc, List.take_append_of_le_length (by omega), List.take_of_length_le (by omega)]
    · rfl
    · rfl

/-- A legacy image of two stripes of two sectors: the first still in the image, the second local. -/
def demoLegacy : Bytes := magicBytes ++ [0, 0, 2, 0, 1] ++ zeros 498 ++ [0, 3] ++ zeros 510

example : isLegacy demoLegacy = true ∧ translate demoLegacy 4 = .ok { Meta.new 1 2 0 with headers := [4, 2] } := ⟨by decide +kernel, rfl⟩

/-- **C35** Keys: what comes out is always two 32-byte keys, as stored or as decrypted under the configured key. -/
theorem C35_keys (dec : Bytes → Bytes → Bytes → Bytes → Option Bytes) (kek : LegacyKek) (w : Bytes × Bytes) (key : Bytes)
    (h : unwrapXtsKey dec w kek = some key) : key.length = 64 ∧
      ((kek.gcm = false ∧ key = w.1 ++ w.2) ∨
       ∃ k iv a b, kek.gcm = true ∧ kek.key = some k ∧ kek.iv = some iv ∧ k.length = 32 ∧ iv.length = 12 ∧
        dec k iv (kek.aad.getD []) w.1 = some a ∧ dec k iv (kek.aad.getD []) w.2 = some b ∧ key = a ++ b) := by
  have hinto : ∀ b r : Bytes, intoKey b = some r → r = b ∧ b.length = 32 := by
    intro b r h
    unfold intoKey at h
    split at h
    · rename_i hl; simp at h; exact ⟨h.symm, hl⟩
    · simp at h
  unfold unwrapXtsKey at h
  cases hg : kek.gcm with
  | false =>
    rw [hg] at h
    simp only [Bool.false_eq_true, if_false, Option.bind_eq_bind, Option.bind_eq_some_iff] at h
    obtain ⟨a, h1, b, h2, h3⟩ := h
    obtain ⟨rfl, l1⟩ := hinto _ _ h1
    obtain ⟨rfl, l2⟩ := hinto _ _ h2
    simp only [Option.some.injEq] at h3
    subst h3
    exact ⟨by simp [l1, l2], .inl ⟨rfl, rfl⟩⟩
  | true =>
    rw [hg] at h
    simp only [if_true, Option.bind_eq_bind, Option.bind_eq_some_iff] at h
    obtain ⟨k, h1, iv, h2, h3⟩ := h
    split at h3
    · simp at h3
    · split at h3
      · simp at h3
      · rename_i hk hiv
        simp only [Option.bind_eq_some_iff, decryptKey] at h3
        obtain ⟨a, ⟨a', d1, e1⟩, b, ⟨b', d2, e2⟩, h5⟩ := h3
        obtain ⟨rfl, l1⟩ := hinto _ _ e1
        obtain ⟨rfl, l2⟩ := hinto _ _ e2
        simp only [Option.some.injEq] at h5
        subst h5
        exact ⟨by simp [l1, l2], .inr ⟨k, iv, a, b, rfl, h1, h2, by omega, by omega, d1, d2, rfl⟩⟩

/-- **C35** Keys that were wrapped by any cipher `dec` inverts come out again. -/
theorem C35_key_round_trip (enc : Bytes → Bytes → Bytes → Bytes → Bytes) (dec : Bytes → Bytes → Bytes → Bytes → Option Bytes)
    (hlaw : ∀ k iv aad p, dec k iv aad (enc k iv aad p) = some p) (k iv aad a b : Bytes) (hk : k.length = 32) (hiv : iv.length = 12)
    (ha : a.length = 32) (hb : b.length = 32) :
    unwrapXtsKey dec (enc k iv aad a, enc k iv aad b) ⟨true, some k, some iv, some aad⟩ = some (a ++ b) ∧
    unwrapXtsKey dec (a, b) ⟨false, none, none, none⟩ = some (a ++ b) := by
  simp [unwrapXtsKey, hk, hiv, decryptKey, hlaw, intoKey, ha, hb]

example : ∃ (enc : Bytes → Bytes → Bytes → Bytes → Bytes) (dec : Bytes → Bytes → Bytes → Bytes → Option Bytes),
    ∀ k iv aad p, dec k iv aad (enc k iv aad p) = some p := ⟨fun _ _ _ p => 7 :: p, fun _ _ _ c => c.tail?, fun _ _ _ _ => rfl⟩

/-! ## C36 -/

theorem flag_has (h f : UInt8) : Lazy.flag h f = has h f := rfl

/-- A stripe the server has data for. -/
def Flags.data (f : Flags) : Bool := f.written || f.hasSource

theorem hasStripe_iff (hdrs : Bytes) (k : Nat) : hasStripe hdrs k = true ↔ ∃ h, hdrs[k]? = some h ∧ (flagsOf h).data = true := by
  unfold hasStripe
  cases hdrs[k]? with
  | none => simp
  | some h => simp [Flags.data, has_written, has_source]

/-- `stripesWithData` is one more than the last stripe with data. -/
theorem stripesWithData_spec (hdrs : Bytes) : (∀ k, hasStripe hdrs k = true → k < stripesWithData hdrs) ∧
    (stripesWithData hdrs ≠ 0 → hasStripe hdrs (stripesWithData hdrs - 1) = true) ∧ stripesWithData hdrs ≤ hdrs.length := by
  induction hdrs with
  | nil => exact ⟨fun k h => by simp [hasStripe] at h, fun h => absurd rfl h, Nat.le_refl _⟩
  | cons h t ih =>
    obtain ⟨i1, i2, i3⟩ := ih
    have hz : hasStripe (h :: t) 0 = (flagsOf h).data := by simp [hasStripe, Flags.data, has_written, has_source]
    have hs : ∀ k, hasStripe (h :: t) (k + 1) = hasStripe t k := by intro k; simp [hasStripe]
    have he : has h (WRITTEN ||| HAS_SOURCE) = (flagsOf h).data := has_either h
    simp only [stripesWithData]
    by_cases h1 : stripesWithData t ≠ 0
    · rw [if_pos h1]
      refine ⟨fun k hk => ?_, fun _ => ?_, by simp; omega⟩
      · cases k with
        | zero => omega
        | succ k => rw [hs] at hk; have := i1 k hk; omega
      · rw [show stripesWithData t + 1 - 1 = (stripesWithData t - 1) + 1 by omega, hs]
        exact i2 h1
    · rw [if_neg h1, he]
      have h1 : stripesWithData t = 0 := by omega
      refine ⟨fun k hk => ?_, fun hn => ?_, ?_⟩
      · cases k with
        | zero => rw [hz] at hk; rw [if_pos hk]; decide
        | succ k => rw [hs] at hk; have := i1 k hk; omega
      · split at hn
        · rename_i hd; rw [if_pos hd, hz]; exact hd
        · exact absurd rfl hn
      · split <;> simp

/-- **C36** (start-up of the source) The size the remote source reports ends exactly with the last stripe the server
has data for. -/
theorem C36_source_size (pool : List (Option Meta)) (ssc : Nat) (hdrs : Bytes) (n : Nat) (fp : Nat × Nat)
    (h : newSource pool ssc = .ok (hdrs, n, fp)) :
    ∃ m rest, pool = some m :: rest ∧ hdrs = m.headers ∧ 2 ^ m.shift.toNat = ssc ∧
      (∀ k, hasStripe hdrs k = true → (k + 1) * ssc ≤ n) ∧
      (n ≠ 0 → ∃ k, hasStripe hdrs k = true ∧ n = (k + 1) * ssc) := by
  unfold newSource at h
  match pool, h with
  | some m :: rest, h =>
    simp only at h
    split at h
    · simp at h
    · split at h
      · simp at h
      · rename_i h1 h2
        simp only [Except.ok.injEq, Prod.mk.injEq] at h
        obtain ⟨rfl, rfl, -⟩ := h
        have h1 : stripeSectorCount m = ssc := Decidable.not_not.1 h1
        obtain ⟨s1, s2, s3⟩ := stripesWithData_spec m.headers
        refine ⟨m, rest, rfl, rfl, h1, fun k hk => ?_, fun hn => ?_⟩
        · rw [h1]; exact Nat.mul_le_mul_right _ (s1 k hk)
        · have : stripesWithData m.headers ≠ 0 := by rintro h0; rw [h0] at hn; simp at hn
          refine ⟨_, s2 this, ?_⟩
          rw [h1, Nat.sub_add_cancel (by omega)]

/-- `r k` is what fetching stripe `k` gave: a successful one was decoded from a reply of the server to a read of that
stripe (at any point of a session, with any stream chunking). -/
def Answers (s : Srv) (r : Nat → Except CErr Bytes) : Prop :=
  ∀ k d, r k = .ok d → ∃ i cs rest, cs.flatten = (s.handleRead i k).1 ++ rest ∧ (clientFetch (some s.md) cs).1 = .ok d

/-- A successful fetch is of a stripe the server has data for, and returns its current contents. -/
theorem answers_data {s : Srv} (hs : s.Sized) (hm : Saveable s.md) {r : Nat → Except CErr Bytes} (hr : Answers s r) {k : Nat} {d : Bytes}
    (hk : r k = .ok d) : d = s.volume.stripe k ∧ d.length = stripeSize s.md ∧ hasStripe s.md.headers k = true := by
  obtain ⟨i, cs, rest, h1, h2⟩ := hr k d hk
  have key : ∀ a, (a = s.volume.answer k ∨ a = .serverError) → Wire a (s.handleRead i k).1 → a = .data d := by
    intro a ha hw
    have hcase : (∃ d, a = .data d ∧ d.length = stripeSize s.md) ∨ a = .invalidStripe ∨ a = .noData ∨ a = .notFetched ∨ a = .serverError ∨
        a = .badCommand := by
      rcases ha with rfl | rfl
      · unfold Volume.answer
        split
        · simp
        · split
          · simp
          · split
            · exact .inl ⟨_, rfl, stripe_length hs k⟩
            · simp
      · simp
    obtain ⟨cs', -, h4⟩ := C30_fetch_decodes s.md hm a _ rest hw hcase cs h1
    rw [h4] at h2
    simp only at h2
    rcases hcase with ⟨d', rfl, -⟩ | rfl | rfl | rfl | rfl | rfl <;> simp [clientView] at h2
    rw [h2]
  have hd : s.volume.answer k = .data d := by
    rcases C31_failure s hs i k with ⟨hw, -⟩ | ⟨hw, -, -⟩
    · exact key _ (.inl rfl) hw
    · exact absurd (key _ (.inr rfl) hw) (by simp)
  rw [C31_data_iff] at hd
  obtain ⟨h5, h, h6, h7, -⟩ := hd
  refine ⟨h5.symm, by rw [← h5]; exact stripe_length hs k, (hasStripe_iff _ _).2 ⟨h, h6, ?_⟩⟩
  rcases h7 with h7 | h7 <;> simp [Flags.data, h7]

/-- The remote source as the new volume's fetcher sees it: a stripe fetched successfully is delivered into a buffer of
one stripe and read back sector by sector. -/
def remoteSrc (ss : Nat) (r : Nat → Except CErr Bytes) : Nat → Option Bytes := fun x =>
  match r (x / ss) with
  | .ok d => some (slice (deliver d (zeros (ss * 512))).1 (x % ss * 512) 512)
  | .error _ => none

theorem flatMap_slice {f : Nat → Bytes} (hf : ∀ i, (f i).length = 512) : ∀ (n i : Nat), i < n →
    slice ((List.range n).flatMap f) (i * 512) 512 = f i := by
  intro n
  induction n with
  | zero => intro i h; omega
  | succ n ih =>
    intro i hi
    have hl : ∀ n, ((List.range n).flatMap f).length = n * 512 := by
      intro n
      induction n with
      | zero => rfl
      | succ n ih => rw [List.range_succ, List.flatMap_append, List.length_append, ih]; simp [hf]; omega
    rw [List.range_succ, List.flatMap_append]
    simp only [List.flatMap_cons, List.flatMap_nil, List.append_nil, slice]
    by_cases h : i < n
    · rw [List.drop_append_of_le_length (by rw [hl]; omega), List.take_append_of_le_length (by rw [List.length_drop, hl]; omega)]
      exact ih i h
    · have : i = n := by omega
      subst this
      rw [List.drop_append, List.drop_eq_nil_of_le (by rw [hl]; omega), hl, Nat.sub_self, List.drop_zero, List.nil_append,
        List.take_of_length_le (by rw [hf]; omega)]

theorem remoteSrc_eq {s : Srv} (hs : s.Sized) (hm : Saveable s.md) {r : Nat → Except CErr Bytes} (hr : Answers s r) {x : Nat} {v : Bytes}
    (hx : remoteSrc (stripeSectorCount s.md) r x = some v) : v = s.volume.sector x := by
  unfold remoteSrc at hx
  cases hk : r (x / stripeSectorCount s.md) with
  | error e => rw [hk] at hx; simp at hx
  | ok d =>
    rw [hk] at hx
    obtain ⟨h1, h2, -⟩ := answers_data hs hm hr hk
    have hss := ssc_pos s.md
    simp only [deliver, zeros_length, h2, stripeSize, Option.some.injEq] at hx
    rw [if_neg (by omega), Nat.sub_self] at hx
    simp only at hx
    rw [show zeros 0 = [] from rfl, List.append_nil, h1] at hx
    have hsec : ∀ i, (s.volume.sector (x / stripeSectorCount s.md * s.volume.ss + i)).length = 512 := by
      intro i
      unfold Volume.sector
      split
      · rename_i hf him
        split
        · exact hs.2 _ him _
        · exact hs.1 _
      · exact hs.1 _
    unfold Volume.stripe at hx
    rw [show s.volume.ss = stripeSectorCount s.md from rfl] at hx hsec
    rw [flatMap_slice hsec _ _ (Nat.mod_lt _ hss)] at hx
    rw [← hx]
    congr 1
    show x / stripeSectorCount s.md * stripeSectorCount s.md + x % stripeSectorCount s.md = x
    have := Nat.div_add_mod x (stripeSectorCount s.md)
    rw [Nat.mul_comm] at this
    exact this

/-- Headers of a volume initialised from the server. -/
theorem newFromSource_flags (shift : UInt8) (n : Nat) (hdrs : Bytes) (k : Nat) (hk : k < n) :
    ∃ h, (Meta.newFromSource shift n (hasStripe hdrs)).headers[k]? = some h ∧ flagsOf h = ⟨false, false, hasStripe hdrs k⟩ := by
  refine ⟨_, by simp only [Meta.newFromSource]; rw [List.getElem?_map, List.getElem?_range hk]; rfl, ?_⟩
  cases hh : hasStripe hdrs k <;> simp [hh] <;> rfl

/-- The set-up of a migration: volume `c` is initialised from server `s` and starts. -/
structure Migration (s : Srv) (r : Nat → Except CErr Bytes) (c : Lazy.Cfg Bytes) (mv : Nat → Bytes) : Prop where
  sized : s.Sized
  saveable : Saveable s.md
  answers : Answers s r
  /-- the remote source was built: its stripes have the size of the volume's -/
  ss : c.ss = stripeSectorCount s.md
  src : c.src = remoteSrc c.ss r
  srcStripes : c.srcStripes = stripesWithData s.md.headers
  boot : Lazy.Bootable c (Meta.newFromSource s.md.shift c.n (hasStripe s.md.headers)).headers mv

/-- **C36** No source stripe is missed: every stripe the server has data for is inside the new volume and marked to be
fetched, and nothing else is. -/
theorem C36_no_stripe_missed {s : Srv} {r : Nat → Except CErr Bytes} {c : Lazy.Cfg Bytes} {mv : Nat → Bytes} (h : Migration s r c mv)
    (k : Nat) : (∃ hd, s.md.headers[k]? = some hd ∧ (flagsOf hd).data = true) ↔
      ∃ hd, (Meta.newFromSource s.md.shift c.n (hasStripe s.md.headers)).headers[k]? = some hd ∧ (flagsOf hd).hasSource = true ∧
        (flagsOf hd).fetched = false := by
  rw [← hasStripe_iff]
  constructor
  · intro hk
    have h1 := (stripesWithData_spec s.md.headers).1 k hk
    have h2 := h.boot.srcStripes
    rw [h.srcStripes] at h2
    obtain ⟨hd, h3, h4⟩ := newFromSource_flags s.md.shift c.n s.md.headers k (by omega)
    exact ⟨hd, h3, by rw [h4]; exact hk, by rw [h4]⟩
  · rintro ⟨hd, h1, h2, -⟩
    have hk : k < c.n := by
      have := (List.getElem?_eq_some_iff.1 h1).1
      simpa [Meta.newFromSource] using this
    obtain ⟨hd', h3, h4⟩ := newFromSource_flags s.md.shift c.n s.md.headers k hk
    rw [h1, Option.some.injEq] at h3
    subst h3
    rw [h4] at h2
    exact h2

/-- **C36** The new volume, seen as the plain disk it behaves like (C05): on stripes the server has data for, the
served volume's current contents; elsewhere the new disk's own. -/
theorem C36_contents {s : Srv} {r : Nat → Except CErr Bytes} {c : Lazy.Cfg Bytes} {mv : Nat → Bytes} (h : Migration s r c mv)
    (tv : Nat → Bytes) (x : Nat) (hx : x / c.ss < c.n) (hg : c.good x = true) :
    Lazy.preload c (Meta.newFromSource s.md.shift c.n (hasStripe s.md.headers)).headers tv x =
      if hasStripe s.md.headers (x / c.ss) then s.volume.sector x else tv x := by
  obtain ⟨hd, h1, h2⟩ := newFromSource_flags s.md.shift c.n s.md.headers _ hx
  have hgd : (Meta.newFromSource s.md.shift c.n (hasStripe s.md.headers)).headers.getD (x / c.ss) 0 = hd := by
    rw [List.getD_eq_getElem?_getD, h1]; rfl
  have hs1 : Lazy.flag hd HAS_SOURCE = hasStripe s.md.headers (x / c.ss) := by rw [flag_has, has_source, h2]
  have hs2 : Lazy.flag hd FETCHED = false := by rw [flag_has, has_fetched, h2]
  unfold Lazy.preload Lazy.preloadWith
  simp only
  rw [hgd, hs1, hs2, Bool.not_false, Bool.and_true]
  cases hh : hasStripe s.md.headers (x / c.ss) with
  | false => rfl
  | true =>
    simp only [if_true]
    have : (c.src x).isSome = true := by
      unfold Lazy.Cfg.good at hg
      rw [h.boot.hs, hgd, hs1, hh] at hg
      simpa using hg
    obtain ⟨v, hv⟩ := Option.isSome_iff_exists.1 this
    rw [hv]
    rw [h.src, h.ss] at hv
    rw [remoteSrc_eq h.sized h.saveable h.answers hv]
    rfl

/-- **C36** What a guest of the new volume reads, in any run, with any power losses, whether the stripe has been fetched
yet or not: the served volume's contents, as long as the guest has not written the sector itself. -/
theorem C36_guest_reads {s : Srv} {r : Nat → Except CErr Bytes} {c : Lazy.Cfg Bytes} {mv : Nat → Bytes} (h : Migration s r c mv)
    {tv : Nat → Bytes} {b0 : Nat → Nat → Bytes} {st : Lazy.Sys Bytes} {ls : List (Lazy.Lab Bytes)}
    (hrun : Lazy.Run c (Lazy.Sys.boot c (Meta.newFromSource s.md.shift c.n (hasStripe s.md.headers)).headers tv mv b0) ls st)
    {pre post : List (Ev Bytes)} {q id off cnt x : Nat} {out : List (Option Bytes)}
    (hv : Lazy.visible ls = pre ++ Ev.issue q id (.read off cnt) :: post ++ [Ev.resp q id true out])
    (hx : covers off cnt x) (hq : quiet pre x) (hq' : quiet post x) (ho : unanswered (q, id) post)
    (hn : x / c.ss < c.n) (hg : c.good x = true) (hd : hasStripe s.md.headers (x / c.ss) = true) :
    out[x - off]? = some (some (s.volume.sector x)) := by
  rw [Lazy.C05_read_unwritten h.boot hrun hv hx hg hq hq' ho, C36_contents h tv x hn hg, if_pos hd]

/-! ### The served side -/

theorem flags_markNoSource (h : UInt8) : flagsOf (if has h HAS_SOURCE then h else h ||| WRITTEN) =
    { flagsOf h with written := (flagsOf h).written || !(flagsOf h).hasSource } := by
  rw [has_source]
  cases hs : (flagsOf h).hasSource with
  | true =>
    rw [if_pos rfl]
    generalize flagsOf h = f at hs ⊢
    obtain ⟨a, b, c⟩ := f
    simp only at hs
    simp [hs]
  | false =>
    rw [if_neg (by decide), flags_mark]
    generalize flagsOf h = f at hs ⊢
    simp

/-- What a server prepared from a current-format volume serves. -/
theorem prepare_spec {buf : Bytes} {md m : Meta} {n : Nat} {cfgSrc src : Option (Nat → Bytes)} {track : Bool} (hl : fromBytes buf = .ok md)
    (hp : prepare (some buf) n cfgSrc track = .ok (m, src)) :
    m.shift = md.shift ∧ m.headers.length = md.headers.length ∧ src ≠ none ∧
    (∀ (k : Nat) (h : UInt8), md.headers[k]? = some h → ∃ h', m.headers[k]? = some h' ∧
      flagsOf h' = { flagsOf h with written := (flagsOf h).written || (!track && !(flagsOf h).hasSource) } ∧
      ((flagsOf h).remote = true → ∃ im, cfgSrc = some im ∧ src = some im)) := by
  simp only [prepare, C35_current_not_legacy buf md hl n, bind, Except.bind] at hp
  split at hp
  · simp at hp
  · rename_i hns
    simp only [Except.ok.injEq, Prod.mk.injEq] at hp
    obtain ⟨hm, hsrc⟩ := hp
    have hsh : m.shift = md.shift ∧ m.headers.length = md.headers.length := by
      rw [← hm]; cases track <;> simp [markNoSource]
    refine ⟨hsh.1, hsh.2, by rw [← hsrc]; simp, fun k h hk => ?_⟩
    have hrem : (flagsOf h).remote = true → ∃ im, cfgSrc = some im ∧ src = some im := by
      intro hr
      have hnf : hasFetchedAll md = false := by
        unfold hasFetchedAll
        rw [List.all_eq_false]
        refine ⟨h, List.mem_of_getElem? hk, ?_⟩
        simp only [Flags.remote, Bool.and_eq_true, Bool.not_eq_true'] at hr
        have e1 : ((h &&& HAS_SOURCE) == 0) = false := by
          have := has_source h
          rw [hr.1] at this
          simpa [has, bne] using this
        have e2 : ((h &&& FETCHED) != 0) = false := by
          have := has_fetched h
          rw [hr.2] at this
          exact this
        rw [e1, e2]; decide
      rw [hnf] at hns hsrc
      cases cfgSrc with
      | none => simp at hns
      | some im => exact ⟨im, rfl, by rw [← hsrc]; simp⟩
    cases track with
    | true =>
      simp only [if_true] at hm
      subst hm
      exact ⟨h, hk, by simp, hrem⟩
    | false =>
      simp only [Bool.false_eq_true, if_false] at hm
      subst hm
      refine ⟨_, by simp only [markNoSource]; rw [List.getElem?_map, hk]; rfl, ?_, hrem⟩
      rw [flags_markNoSource]; simp

/-- **C36** A server prepared from the devices of a stopped volume serves exactly what that volume, if started instead,
would present; it has data for every stripe that has a source or was written, and without written tracking for every
stripe; and it answers each of those with the data. -/
theorem C36_served {c : Lazy.Cfg Bytes} {tv mv : Nat → Bytes} {md : Meta} {cfgSrc : Option (Nat → Bytes)} {n : Nat} {s : Srv}
    (hload : fromBytes (Lazy.devBytes c.msec mv) = .ok md) (hss : c.ss = 2 ^ md.shift.toNat)
    (hsrc : ∀ im, cfgSrc = some im → ∀ x, c.src x = some (im x))
    (hp : prepare (some (Lazy.devBytes c.msec mv)) n cfgSrc c.track = .ok (s.md, s.src)) (hdev : s.dev = tv) (k : Nat) (h : UInt8)
    (hk : md.headers[k]? = some h) :
    (∀ x, x / c.ss = k → s.volume.sector x = Lazy.preload c md.headers tv x) ∧
    (hasStripe s.md.headers k = true ↔ (flagsOf h).data = true ∨ c.track = false) ∧
    (hasStripe s.md.headers k = true → s.volume.answer k = .data (s.volume.stripe k)) := by
  obtain ⟨h1, h2, h3, h4⟩ := prepare_spec hload hp
  obtain ⟨h', h5, h6, h7⟩ := h4 k h hk
  have hssc : stripeSectorCount s.md = c.ss := by rw [hss, ← h1]; rfl
  refine ⟨fun x hx => ?_, ?_, ?_⟩
  · obtain ⟨c1, c2⟩ := C31_sector s x h' (by rw [hssc, hx]; exact h5)
    have hgd : md.headers.getD (x / c.ss) 0 = h := by rw [List.getD_eq_getElem?_getD, hx, hk]; rfl
    unfold Lazy.preload Lazy.preloadWith
    simp only
    rw [hgd, flag_has, flag_has, has_source, has_fetched]
    by_cases hr : (flagsOf h).remote = true
    · obtain ⟨im, e1, e2⟩ := h7 hr
      have hr' := hr
      simp only [Flags.remote, Bool.and_eq_true, Bool.not_eq_true'] at hr'
      rw [c1 im e2 (by rw [h6]; exact hr'.1) (by rw [h6]; exact hr'.2), hr'.1, hr'.2]
      simp [hsrc im e1]
    · have hr' : ((flagsOf h).hasSource && !(flagsOf h).fetched) = false := by simpa [Flags.remote] using hr
      rw [hr', c2 ?_, hdev]
      · rfl
      · rw [h6]
        cases hf : (flagsOf h).fetched
        · left; rw [hf] at hr'; simpa using hr'
        · right; rfl
  · rw [hasStripe_iff]
    constructor
    · rintro ⟨h'', e1, e2⟩
      rw [h5, Option.some.injEq] at e1
      subst e1
      simp only [Flags.data, h6] at e2
      cases ht : c.track
      · exact .inr rfl
      · left; simpa [ht, Flags.data] using e2
    · intro hd
      refine ⟨h', h5, ?_⟩
      simp only [Flags.data, h6]
      rcases hd with hd | hd
      · simp only [Flags.data, Bool.or_eq_true] at hd
        rcases hd with hd | hd <;> simp [hd]
      · rw [hd]; cases (flagsOf h).hasSource <;> simp
  · intro hd
    obtain ⟨h'', e1, e2⟩ := (hasStripe_iff _ _).1 hd
    rw [h5, Option.some.injEq] at e1
    subst e1
    rw [C31_data_iff]
    refine ⟨rfl, h', h5, by simpa [Flags.data] using e2, fun _ _ => h3⟩

/-- **C36** A device without metadata is served whole, from the device: every stripe covering its `n` sectors is
answered with the device's contents. -/
theorem C36_served_plain (n : Nat) (cfgSrc : Option (Nat → Bytes)) (track : Bool) :
    ∃ m, prepare none n cfgSrc track = .ok (m, none) ∧ stripeSectorCount m = 2048 ∧ m.headers.length = (n + 2047) / 2048 ∧
      ∀ s : Srv, s.md = m → s.src = none → ∀ k, k < m.headers.length →
        s.volume.answer k = .data (s.volume.stripe k) ∧ ∀ x, x / 2048 = k → s.volume.sector x = s.dev x := by
  refine ⟨_, rfl, rfl, ?_, ?_⟩
  · simp [Meta.new, divCeil, DEFAULT_SHIFT]
  · intro s hs1 hs2 k hk
    have hh : s.md.headers[k]? = some 7 := by
      rw [hs1]
      simp only [List.length_map, Meta.new, List.length_range] at hk
      simp only [Meta.new]
      rw [List.getElem?_map, List.getElem?_map, List.getElem?_range hk]
      simp only [Option.map_some, if_pos hk]
      rfl
    refine ⟨(C31_data_iff _ _ _).2 ⟨rfl, 7, hh, .inl rfl, fun _ h => absurd h (by decide)⟩, fun x hx => ?_⟩
    refine (C31_sector s x 7 ?_).2 (.inr rfl)
    rw [hs1]
    have : stripeSectorCount ({ Meta.new DEFAULT_SHIFT (divCeil n (2 ^ DEFAULT_SHIFT.toNat)) (divCeil n (2 ^ DEFAULT_SHIFT.toNat)) with
      headers := (Meta.new DEFAULT_SHIFT (divCeil n (2 ^ DEFAULT_SHIFT.toNat)) (divCeil n (2 ^ DEFAULT_SHIFT.toNat))).headers.map fun h => h ||| (WRITTEN ||| FETCHED) }) = 2048 := rfl
    rw [this, hx, ← hs1]
    exact hh

/-- **C36**, end to end. A volume `c` runs, with any requests and power losses, and stops (`tv'`, `mv'` are what its
devices hold); a server is prepared from them; a new volume `c'` is initialised from the server. Then there is a content
`v` that a plain disk could hold after what the old guest saw such that the new volume behaves like a plain disk
holding `v` on every stripe, except that a stripe which never had a source and was never written (with written
tracking) is not transferred: its content was the old disk's initial one. -/
theorem C36_end_to_end {c : Lazy.Cfg Bytes} {hdrs : Bytes} {tv mv tv' mv' : Nat → Bytes} {b0 : Nat → Nat → Bytes} {st : Lazy.Sys Bytes}
    {ls : List (Lazy.Lab Bytes)} (hb : Lazy.Bootable c hdrs mv) (hrun : Lazy.Run c (Lazy.Sys.boot c hdrs tv mv b0) ls st)
    (ht : st.t.survives tv') (hm : st.m.survives mv') {md : Meta} (hload : fromBytes (Lazy.devBytes c.msec mv') = .ok md)
    (hss : c.ss = 2 ^ md.shift.toNat) {cfgSrc : Option (Nat → Bytes)} (hsrc : ∀ im, cfgSrc = some im → ∀ x, c.src x = some (im x))
    {n : Nat} {s : Srv} (hp : prepare (some (Lazy.devBytes c.msec mv')) n cfgSrc c.track = .ok (s.md, s.src)) (hdev : s.dev = tv')
    {r : Nat → Except CErr Bytes} {c' : Lazy.Cfg Bytes} {nmv : Nat → Bytes} (hmig : Migration s r c' nmv) (ntv : Nat → Bytes) :
    ∃ g d v, Disk.Run (Dev.fresh (Lazy.preloadWith c g hdrs tv)) (Lazy.visible ls) d ∧ d.survives v ∧
      ∀ x, x < c.tsec → x / c.ss < md.headers.length → c.good x = true → x / c'.ss < c'.n → c'.good x = true →
        (hasStripe s.md.headers (x / c.ss) = true ∧
          Lazy.preload c' (Meta.newFromSource s.md.shift c'.n (hasStripe s.md.headers)).headers ntv x = v x) ∨
        (c.track = true ∧ hasStripe s.md.headers (x / c.ss) = false ∧ v x = Lazy.preload c hdrs tv x) := by
  obtain ⟨gg, d, hd, hrec⟩ := Lazy.C06_recovery hb hrun
  obtain ⟨md', v, h1, h2, h3⟩ := hrec tv' mv' ht hm
  have hb2 : Lazy.Bootable c md'.headers mv' := by
    obtain ⟨md2, e1, e2⟩ := Lazy.C06_reload hb hrun hm
    rw [h1, Except.ok.injEq] at e1; rw [e1]; exact e2
  have h3 : ∀ x, x < c.tsec → c.good x = true → Lazy.preload c md'.headers tv' x = v x := fun x hx hg => by
    rw [← Lazy.preloadWith_good hb2 gg hg]; exact h3 x hx
  rw [hload, Except.ok.injEq] at h1
  subst h1
  refine ⟨gg, d, v, hd, h2, fun x hx hk hg hx' hg' => ?_⟩
  obtain ⟨g1, g2, g3⟩ := C36_served (tv := tv') hload hss hsrc hp hdev (x / c.ss) _ (List.getElem?_eq_getElem hk)
  have hcs : c'.ss = c.ss := by
    rw [hmig.ss, hss, ← (prepare_spec hload hp).1]; rfl
  cases hh : hasStripe s.md.headers (x / c.ss) with
  | true =>
    refine .inl ⟨rfl, ?_⟩
    rw [C36_contents hmig ntv x hx' hg', hcs, if_pos hh, g1 x rfl, h3 x hx hg]
  | false =>
    right
    have htr : c.track = true := by
      cases hc : c.track
      · rw [hc] at g2; rw [g2.2 (.inr rfl)] at hh; simp at hh
      · rfl
    refine ⟨htr, rfl, ?_⟩
    rw [← h3 x hx hg]
    refine (Lazy.C08_unwritten_is_original htr hb hrun ht hm hload hx hg ?_).1
    rw [List.getD_eq_getElem?_getD, List.getElem?_eq_getElem hk, flag_has, has_written, Option.getD_some]
    cases hw : (flagsOf md.headers[x / c.ss]).written
    · rfl
    · rw [g2.2 (.inl (by simp [Flags.data, hw]))] at hh; simp at hh

/-- Any saved metadata make a volume that starts. -/
theorem saved_bootable {D : Type} {m : Meta} {c : Lazy.Cfg D} (hsv : Saveable m) (hfit : metadataSize m ≤ c.msec * 512)
    (hss : 0 < c.ss) (hn : c.n = m.headers.length) (hhs : ∀ k, c.hs k = Lazy.flag (m.headers.getD k 0) HAS_SOURCE) (hsrc : c.srcStripes ≤ c.n) :
    ∃ mv, Lazy.Bootable c m.headers mv := by
  obtain ⟨b', h1, h2, -, h4⟩ := C01_save_load m (zeros (c.msec * 512)) hsv (by rw [zeros_length]; exact hfit) (by rw [zeros_length]; simp)
  rw [zeros_length] at h2
  refine ⟨Lazy.sectorsOf b', hss, ⟨_, ?_, rfl⟩, hn.symm, Lazy.sectorsOf_length _, hhs, hsrc⟩
  rw [Lazy.devBytes_sectorsOf _ _ (by omega), List.take_of_length_le (by omega)]; exact h4

/-- What a client decodes from the demo server, stripe by stripe. -/
def demoReplies : Nat → Except CErr Bytes := fun k => clientView (demoSrv.volume.answer k)

/-- A volume of four stripes of two sectors initialised from the demo server. -/
def demoNew : Lazy.Cfg Bytes :=
  { ss := 2, n := 4, tsec := 8, msec := 2, hs := fun k => Lazy.flag ((Meta.newFromSource 1 4 (hasStripe demoSrv.md.headers)).headers.getD k 0) HAS_SOURCE,
    src := remoteSrc 2 demoReplies, srcHas := fun k => hasStripe demoSrv.md.headers k, srcStripes := 4, image := false, track := true,
    autofetch := true }

/-- The hypotheses of C36 are met: the demo server's volume can be migrated, and every sector is defined. -/
theorem demo_migration : ∃ mv, Migration demoSrv demoReplies demoNew mv ∧ ∀ x, demoNew.good x = true := by
  have hsv : Saveable (Meta.newFromSource 1 4 (hasStripe demoSrv.md.headers)) := ⟨rfl, rfl, rfl, by decide, by decide⟩
  obtain ⟨mv, hmv⟩ := saved_bootable (c := demoNew) hsv (by decide) (by decide) (by decide) (fun _ => rfl) (by decide)
  have hans : ∀ k, (∃ d, demoReplies k = .ok d) ∨ hasStripe demoSrv.md.headers k = false := by
    intro k
    match k with
    | 0 => exact .inl ⟨demoSrv.volume.stripe 0, rfl⟩
    | 1 => exact .inl ⟨demoSrv.volume.stripe 1, rfl⟩
    | 2 => exact .inr (by decide)
    | 3 => exact .inl ⟨demoSrv.volume.stripe 3, rfl⟩
    | k + 4 => exact .inr (by simp [hasStripe, demoSrv])
  refine ⟨mv, ⟨demoSrv_sized, demoSrv_saveable, ?_, rfl, rfl, by decide, hmv⟩, ?_⟩
  · intro k d hk
    obtain ⟨hw, -⟩ := C31_answer demoSrv demoSrv_sized 0 k rfl rfl
    unfold demoReplies at hk
    have hd : demoSrv.volume.answer k = .data d := by
      generalize demoSrv.volume.answer k = a at hk
      cases a <;> simp [clientView] at hk
      rw [hk]
    have hlen : d.length = stripeSize demoSrv.md := by
      rw [C31_data_iff] at hd
      rw [← hd.1]; exact stripe_length demoSrv_sized k
    rw [hd] at hw
    obtain ⟨cs', -, h2⟩ := C30_fetch_decodes demoSrv.md demoSrv_saveable (.data d) _ [] hw (.inl ⟨d, rfl, hlen⟩) [(demoSrv.handleRead 0 k).1 ++ []] (by simp)
    exact ⟨0, [(demoSrv.handleRead 0 k).1 ++ []], [], by simp, by rw [h2]; rfl⟩
  · intro x
    unfold Lazy.Cfg.good
    rcases hans (x / 2) with ⟨d, hd⟩ | hn
    · have : (demoNew.src x).isSome = true := by
        show (remoteSrc 2 demoReplies x).isSome = true
        unfold remoteSrc
        rw [hd]; rfl
      rw [this, Bool.or_true]
    · have : demoNew.hs (x / demoNew.ss) = false := by
        show Lazy.flag ((Meta.newFromSource 1 4 (hasStripe demoSrv.md.headers)).headers.getD (x / 2) 0) HAS_SOURCE = false
        by_cases hx : x / 2 < 4
        · obtain ⟨hd, h1, h2⟩ := newFromSource_flags 1 4 demoSrv.md.headers _ hx
          rw [List.getD_eq_getElem?_getD, h1, flag_has, has_source, Option.getD_some, h2]; exact hn
        · rw [List.getD_eq_getElem?_getD, List.getElem?_eq_none (by simp [Meta.newFromSource]; omega)]; rfl
      rw [this]; rfl

/-- The new volume presents, for example, the image's sector 2 (stripe 1, not yet fetched by the served volume) and the
served disk's sector 6 (stripe 3, fetched), but not the empty stripe 2. -/
example : ∃ mv, Lazy.Bootable demoNew (Meta.newFromSource 1 4 (hasStripe demoSrv.md.headers)).headers mv ∧ ∀ tv : Nat → Bytes,
    let p := Lazy.preload demoNew (Meta.newFromSource 1 4 (hasStripe demoSrv.md.headers)).headers tv
    p 2 = List.replicate 512 102 ∧ p 6 = List.replicate 512 6 ∧ p 4 = tv 4 := by
  obtain ⟨mv, h, hg⟩ := demo_migration
  refine ⟨mv, h.boot, fun tv => ⟨?_, ?_, ?_⟩⟩
  · exact (C36_contents h tv 2 (by decide) (hg _)).trans (by rw [if_pos (by decide)]; rfl)
  · exact (C36_contents h tv 6 (by decide) (hg _)).trans (by rw [if_pos (by decide)]; rfl)
  · exact (C36_contents h tv 4 (by decide) (hg _)).trans (by rw [if_neg (by decide)])

/-- The server is what `prepare` makes of such a volume's devices. -/
example : ∃ buf im, fromBytes buf = .ok demoSrv.md ∧ demoSrv.src = some im ∧
    prepare (some buf) 8 (some im) true = .ok (demoSrv.md, demoSrv.src) := by
  obtain ⟨b, -, -, -, h4⟩ := C01_save_load demoSrv.md (zeros 1024) demoSrv_saveable (by rw [zeros_length]; decide) (by rw [zeros_length])
  refine ⟨b, _, h4, rfl, ?_⟩
  simp only [prepare, C35_current_not_legacy b _ h4, bind, Except.bind]
  rfl

end Verif.Remote
