import Verif.Model.Lazy
import Verif.Proof.MetadataMore

/-! Loading metadata from a device some of whose sectors changed, and flag bits. -/

set_option maxRecDepth 8000

namespace Verif.Lazy
open Verif Verif.Metadata Verif.Disk

theorem devBytes_length (n : Nat) (v : Nat → Bytes) (h : ∀ x, (v x).length = 512) :
    (devBytes n v).length = n * 512 := by
  unfold devBytes
  induction n with
  | zero => simp
  | succ n ih => simp only [List.range_succ, List.flatMap_append, List.length_append, ih, List.flatMap_singleton, h]; omega

theorem devBytes_succ (n : Nat) (v : Nat → Bytes) : devBytes (n + 1) v = devBytes n v ++ v n := by
  simp [devBytes, List.range_succ, List.flatMap_append]

theorem devBytes_slice (n : Nat) (v : Nat → Bytes) (h : ∀ x, (v x).length = 512) (x : Nat) (hx : x < n) :
    slice (devBytes n v) (x * 512) 512 = v x := by
  induction n with
  | zero => omega
  | succ n ih =>
    rw [devBytes_succ]
    have hl := devBytes_length n v h
    by_cases hxn : x = n
    · subst hxn
      unfold slice
      rw [List.drop_append, List.drop_of_length_le (by omega), hl, Nat.sub_self]
      simp only [List.nil_append, List.drop_zero]
      rw [List.take_of_length_le (by rw [h]; exact Nat.le_refl _)]
    · have := ih (by omega)
      rw [← this]
      unfold slice
      rw [List.drop_append_of_le_length (by omega), List.take_append_of_le_length (by simp only [List.length_drop]; omega)]

theorem devBytes_getElem (n : Nat) (v : Nat → Bytes) (h : ∀ x, (v x).length = 512) (x i : Nat) (hx : x < n) (hi : i < 512) :
    (devBytes n v)[x * 512 + i]? = some ((v x).getD i 0) := by
  have h1 := congrArg (fun l => l[i]?) (devBytes_slice n v h x hx)
  simp only [slice, List.getElem?_take, List.getElem?_drop, hi, if_true] at h1
  rw [h1]
  have : i < (v x).length := by rw [h]; exact hi
  simp [List.getD_eq_getElem?_getD, List.getElem?_eq_getElem this]

theorem readGroups_valid {buf : Bytes} {g n : Nat} {acc : Bytes}
    (h : ∀ i, i < n → 512 + (g + i) * 512 + 512 ≤ buf.length ∧ sectorValid (slice buf (512 + (g + i) * 512) 512) = true) :
    ∃ r, readGroups buf g n acc = .ok r := by
  induction n generalizing g acc with
  | zero => exact ⟨acc, rfl⟩
  | succ n ih =>
    have h0 := h 0 (by omega)
    simp only [Nat.add_zero] at h0
    unfold readGroups
    simp only
    rw [if_pos h0.1, if_pos h0.2]
    apply ih
    intro i hi
    have := h (i + 1) (by omega)
    rw [show g + 1 + i = g + (i + 1) by omega]
    exact this

/-- A load succeeds again after header sectors were replaced by other valid ones. -/
theorem fromBytes_replace {M : Nat} {mv mv' : Nat → Bytes} {md : Meta}
    (hl : ∀ x, (mv x).length = 512) (hl' : ∀ x, (mv' x).length = 512)
    (h : fromBytes (devBytes M mv) = .ok md)
    (h0 : mv' 0 = mv 0)
    (hval : ∀ k, k < md.headers.length → sectorValid (mv' (stripeIdToSector k)) = true) :
    ∃ md', fromBytes (devBytes M mv') = .ok md' ∧ md'.headers.length = md.headers.length ∧ md'.shift = md.shift ∧
      ∀ k, k < md.headers.length → md'.headers.getD k 0 = (mv' (stripeIdToSector k)).getD (k % 508) 0 := by
  have hok := fromBytes_ok h
  have hlen := devBytes_length M mv hl
  have hlen' := devBytes_length M mv' hl'
  obtain ⟨h1, h2, h3, h4, h5, h6, h7, h8, h9, h10, h11, all, hall, hh⟩ := hok
  have hM : 0 < M := by
    rcases Nat.eq_zero_or_pos M with h | h
    · subst h; rw [hlen] at h1; omega
    · exact h
  have hpre : (devBytes M mv').take 512 = (devBytes M mv).take 512 := by
    have e : ∀ v : Nat → Bytes, (∀ x, (v x).length = 512) → (devBytes M v).take 512 = v 0 := by
      intro v hv
      have := devBytes_slice M v hv 0 hM
      simpa [slice] using this
    rw [e mv hl, e mv' hl', h0]
  have et9 : (devBytes M mv').take 9 = (devBytes M mv).take 9 := take_of_take hpre (by omega)
  have es1 : slice (devBytes M mv') 9 2 = slice (devBytes M mv) 9 2 := slice_of_take hpre (by omega)
  have es2 : slice (devBytes M mv') 11 2 = slice (devBytes M mv) 11 2 := slice_of_take hpre (by omega)
  have es3 : slice (devBytes M mv') 14 4 = slice (devBytes M mv) 14 4 := slice_of_take hpre (by omega)
  have eg : (devBytes M mv').getD 13 0 = (devBytes M mv).getD 13 0 := getD_of_take hpre (by omega)
  have hv : slice (devBytes M mv) 9 2 = versionMajor ∧ slice (devBytes M mv) 11 2 = versionMinor := by
    unfold fromBytes at h
    simp only at h
    split at h; · exact absurd h (by simp)
    split at h; · exact absurd h (by simp)
    split at h; · exact absurd h (by simp)
    split at h; · exact absurd h (by simp)
    split at h; · exact absurd h (by simp)
    rename_i hx
    simp only [not_or, Decidable.not_not] at hx
    exact hx
  have hcnt : ¬ ((devBytes M mv).length - 512) / 512 * 508 < md.headers.length := by
    rw [Nat.not_lt, ← divCeil_le_iff (by decide), Nat.le_div_iff_mul_le (by decide)]
    omega
  have hgv : ∀ i, i < divCeil md.headers.length 508 → 512 + (0 + i) * 512 + 512 ≤ (devBytes M mv').length ∧
      sectorValid (slice (devBytes M mv') (512 + (0 + i) * 512) 512) = true := by
    intro i hi
    have hi2 : (i + 1) * 512 ≤ divCeil md.headers.length 508 * 512 := Nat.mul_le_mul_right _ hi
    refine ⟨by rw [hlen']; omega, ?_⟩
    rw [show 512 + (0 + i) * 512 = (i + 1) * 512 by omega, devBytes_slice M mv' hl' (i + 1) (by omega)]
    have hdl := divCeil_mul_lt (a := md.headers.length) (b := 508) (by decide)
    have hi3 : (i + 1) * 508 ≤ divCeil md.headers.length 508 * 508 := Nat.mul_le_mul_right _ hi
    have := hval (i * 508) (by omega)
    unfold stripeIdToSector at this
    rwa [Nat.mul_div_cancel _ (by decide)] at this
  obtain ⟨r, hr⟩ := readGroups_valid (acc := []) hgv
  have hrl := (readGroups_ok hr).2
  have hcm := le_divCeil_mul (a := md.headers.length) (b := 508) (by decide)
  simp only [List.length_nil, Nat.zero_add] at hrl
  refine ⟨{ magic := (devBytes M mv').take 9, verMajor := slice (devBytes M mv') 9 2, verMinor := slice (devBytes M mv') 11 2,
            shift := (devBytes M mv').getD 13 0, headers := r.take md.headers.length }, ?_, ?_, ?_, ?_⟩
  · unfold fromBytes
    simp only
    rw [if_neg (by omega), if_neg (by omega), hpre, if_neg (by simp [h3]), et9, if_neg (by rw [← h4, h5]; simp),
      es1, es2, if_neg (by rw [hv.1, hv.2]; simp), eg, ← h8, if_neg (by omega), es3, ← h10,
      if_neg (by rw [hlen']; rw [hlen] at hcnt; omega), hr]
    simp only
    rw [if_pos (by omega)]
  · simp only [List.length_take]; omega
  · simp only [eg, h8]
  · intro k hk
    simp only
    have hg := readGroups_get hr k (by omega)
    simp only [List.length_nil, Nat.zero_add] at hg
    have hkd : k / 508 < divCeil md.headers.length 508 := by
      rw [Nat.div_lt_iff_lt_mul (by decide)]; omega
    have hkd2 : (k / 508 + 1) * 512 ≤ divCeil md.headers.length 508 * 512 := Nat.mul_le_mul_right _ hkd
    have hge := devBytes_getElem M mv' hl' (stripeIdToSector k) (k % 508) (by unfold stripeIdToSector; omega) (by omega)
    unfold stripeIdToSector at hge ⊢
    rw [show 512 + k / 508 * 512 + k % 508 = (k / 508 + 1) * 512 + k % 508 by omega, hge] at hg
    rw [List.getD_eq_getElem?_getD, List.getElem?_take, if_pos hk, hg]
    rfl

/-! ### Flags -/

theorem forall_u8 {p : UInt8 → Prop} (h : ∀ n : Fin 256, p (UInt8.ofFin n)) (b : UInt8) : p b := by
  have := h b.toFin
  simpa using this

theorem flag_or (h a f : UInt8) : flag (h ||| a) f = (flag h f || flag a f) := by
  unfold flag
  have : (h ||| a) &&& f = (h &&& f) ||| (a &&& f) := by
    apply UInt8.toBitVec_inj.mp
    simp only [UInt8.toBitVec_and, UInt8.toBitVec_or]
    apply BitVec.eq_of_getLsbD_eq
    intro i hi
    simp [Bool.and_or_distrib_right]
  rw [this]
  have key : ∀ x y : UInt8, (x ||| y != 0) = (x != 0 || y != 0) := by
    intro x y
    rw [Bool.eq_iff_iff]
    simp only [bne_iff_ne, ne_eq, Bool.or_eq_true]
    constructor
    · intro h
      by_cases hx : x = 0
      · right; intro hy; subst hx hy; exact h rfl
      · left; exact hx
    · rintro hxy hz
      have hb : x.toBitVec ||| y.toBitVec = 0#8 := by
        have := congrArg UInt8.toBitVec hz
        simpa using this
      rw [BitVec.or_eq_zero_iff] at hb
      rcases hxy with h1 | h1
      · exact h1 (UInt8.toBitVec_inj.mp hb.1)
      · exact h1 (UInt8.toBitVec_inj.mp hb.2)
  exact key _ _

theorem flag_clear_F_W (h : UInt8) : flag (h &&& ~~~FETCHED) WRITTEN = flag h WRITTEN := by
  revert h; apply forall_u8; decide +kernel
theorem flag_clear_F_S (h : UInt8) : flag (h &&& ~~~FETCHED) HAS_SOURCE = flag h HAS_SOURCE := by
  revert h; apply forall_u8; decide +kernel
theorem flag_clear_F_F (h : UInt8) : flag (h &&& ~~~FETCHED) FETCHED = false := by
  revert h; apply forall_u8; decide +kernel
theorem flag_clear_W_F (h : UInt8) : flag (h &&& ~~~WRITTEN) FETCHED = flag h FETCHED := by
  revert h; apply forall_u8; decide +kernel
theorem flag_clear_W_S (h : UInt8) : flag (h &&& ~~~WRITTEN) HAS_SOURCE = flag h HAS_SOURCE := by
  revert h; apply forall_u8; decide +kernel
theorem flag_clear_W_W (h : UInt8) : flag (h &&& ~~~WRITTEN) WRITTEN = false := by
  revert h; apply forall_u8; decide +kernel

theorem set_clear_F (h : UInt8) (hf : flag h FETCHED = false) : (h ||| FETCHED) &&& ~~~FETCHED = h := by
  revert h; apply forall_u8; decide +kernel
theorem set_clear_W (h : UInt8) (hf : flag h WRITTEN = false) : (h ||| WRITTEN) &&& ~~~WRITTEN = h := by
  revert h; apply forall_u8; decide +kernel

theorem flag_FF : flag FETCHED FETCHED = true := by decide
theorem flag_FW : flag FETCHED WRITTEN = false := by decide
theorem flag_FS : flag FETCHED HAS_SOURCE = false := by decide
theorem flag_WF : flag WRITTEN FETCHED = false := by decide
theorem flag_WW : flag WRITTEN WRITTEN = true := by decide
theorem flag_WS : flag WRITTEN HAS_SOURCE = false := by decide

/-- Header byte of stripe `k` inside a freshly built sector. -/
theorem writeSector_byte (hdrs : Bytes) (k : Nat) (hk : k < hdrs.length) :
    (writeSector (groupHeaders hdrs (k / 508))).getD (k % 508) 0 = hdrs.getD k 0 := by
  have hlt : k % 508 < 508 := Nat.mod_lt _ (by decide)
  have h1 : (writeSector (groupHeaders hdrs (k / 508))).getD (k % 508) 0 =
      ((writeSector (groupHeaders hdrs (k / 508))).take 508).getD (k % 508) 0 := by
    simp [List.getD_eq_getElem?_getD, List.getElem?_take, hlt]
  rw [h1, writeSector_take]
  have hdm : k / 508 * 508 + k % 508 = k := by omega
  have hgl : k % 508 < (groupHeaders hdrs (k / 508)).length := by
    simp only [groupHeaders, List.length_take, List.length_drop]; omega
  simp only [List.getD_eq_getElem?_getD, List.getElem?_take, hlt, if_true]
  rw [List.getElem?_append_left hgl]
  simp only [groupHeaders, List.getElem?_take, hlt, if_true, List.getElem?_drop, hdm]

theorem groupHeaders_set_ne (hdrs : Bytes) (k g : Nat) (v : UInt8) (h : k / 508 ≠ g) :
    groupHeaders (hdrs.set k v) g = groupHeaders hdrs g := by
  unfold groupHeaders
  apply List.ext_getElem?
  intro j
  simp only [List.getElem?_take, List.getElem?_drop]
  by_cases hj : j < 508
  · simp only [hj, if_true]
    rw [List.getElem?_set_ne]
    intro he
    apply h
    omega
  · simp [hj]

theorem getD_set (hdrs : Bytes) (k k' : Nat) (v : UInt8) (hk : k < hdrs.length) :
    (hdrs.set k v).getD k' 0 = if k' = k then v else hdrs.getD k' 0 := by
  simp only [List.getD_eq_getElem?_getD]
  by_cases h : k' = k
  · subst h; simp [hk]
  · rw [List.getElem?_set_ne (Ne.symm h)]; simp [h]

end Verif.Lazy
