import Verif.Model.Crc32

namespace Verif.Crc32
open Verif

theorem xor_left_cancel {a b c : BitVec 32} (h : a ^^^ b = a ^^^ c) : b = c := by
  have := congrArg (fun x => a ^^^ x) h
  simpa [← BitVec.xor_assoc] using this

theorem bitStep_inj {s t : BitVec 32} (h : bitStep s = bitStep t) : s = t := by
  have key : ∀ u : BitVec 32, (bitStep u).getLsbD 31 = u.getLsbD 0 := by
    intro u
    unfold bitStep
    by_cases hu : u.getLsbD 0 = true
    · rw [if_pos hu]; simp [poly, hu]; 
    · rw [if_neg hu]; simp at hu; simp [hu]
  have h0 : s.getLsbD 0 = t.getLsbD 0 := by rw [← key s, ← key t, h]
  have hs : s >>> 1 = t >>> 1 := by
    unfold bitStep at h
    rw [h0] at h
    by_cases ht : t.getLsbD 0 = true
    · rw [if_pos ht, if_pos ht] at h
      exact xor_left_cancel (a := poly) (by rw [BitVec.xor_comm poly, BitVec.xor_comm poly]; exact h)
    · rw [if_neg ht, if_neg ht] at h; exact h
  apply BitVec.eq_of_getLsbD_eq
  intro i hi
  cases i with
  | zero => exact h0
  | succ i =>
    have := congrArg (fun x => BitVec.getLsbD x i) hs
    simpa [BitVec.getLsbD_ushiftRight, Nat.add_comm] using this

theorem shift8_inj {s t : BitVec 32} (h : shift8 s = shift8 t) : s = t := by
  unfold shift8 at h
  exact bitStep_inj (bitStep_inj (bitStep_inj (bitStep_inj (bitStep_inj (bitStep_inj (bitStep_inj (bitStep_inj h)))))))

theorem bitStep_xor (s t : BitVec 32) : bitStep (s ^^^ t) = bitStep s ^^^ bitStep t := by
  have hsh : (s ^^^ t) >>> 1 = (s >>> 1) ^^^ (t >>> 1) := by
    apply BitVec.eq_of_getLsbD_eq; intro i hi; simp
  unfold bitStep
  rw [hsh, BitVec.getLsbD_xor]
  cases s.getLsbD 0 <;> cases t.getLsbD 0 <;> simp
  · rw [BitVec.xor_assoc]
  · rw [BitVec.xor_assoc, BitVec.xor_assoc, BitVec.xor_comm poly]
  · generalize s >>> 1 = a; generalize t >>> 1 = b
    apply BitVec.eq_of_getLsbD_eq; intro i hi; simp
    cases a.getLsbD i <;> cases b.getLsbD i <;> cases poly.getLsbD i <;> rfl

theorem shift8_xor (s t : BitVec 32) : shift8 (s ^^^ t) = shift8 s ^^^ shift8 t := by
  simp [shift8, bitStep_xor]

theorem bitStep_shl (z : BitVec 32) (h : z.getLsbD 31 = false) : bitStep (z <<< 1) = z := by
  unfold bitStep
  have : (z <<< 1).getLsbD 0 = false := by simp
  rw [this]
  simp only [Bool.false_eq_true, ↓reduceIte]
  apply BitVec.eq_of_getLsbD_eq
  intro i hi
  rw [BitVec.getLsbD_ushiftRight, BitVec.getLsbD_shiftLeft]
  by_cases h31 : i = 31
  · subst h31; rw [h]; simp
  · have : 1 + i < 32 := by omega
    simp [this]

/-- A value below 2^24 moved up one byte comes back down in eight shifts. -/
theorem shift8_shl (z : BitVec 32) (h : ∀ i, 24 ≤ i → z.getLsbD i = false) :
    shift8 (z <<< 8) = z := by
  have e : ∀ n, n < 8 → bitStep (z <<< (n + 1)) = z <<< n := by
    intro n hn
    have : z <<< (n + 1) = (z <<< n) <<< 1 := by rw [BitVec.shiftLeft_add]
    rw [this]
    apply bitStep_shl
    rw [BitVec.getLsbD_shiftLeft]
    simp [h (31 - n) (by omega)]
  unfold shift8
  rw [e 7 (by omega), e 6 (by omega), e 5 (by omega), e 4 (by omega), e 3 (by omega), e 2 (by omega),
    e 1 (by omega), e 0 (by omega)]
  simp

/-- `n`-fold `shift8`. -/
def shift8n : Nat → BitVec 32 → BitVec 32
  | 0, s => s
  | n + 1, s => shift8n n (shift8 s)

theorem shift8n_inj (n : Nat) {s t : BitVec 32} (h : shift8n n s = shift8n n t) : s = t := by
  induction n generalizing s t with
  | zero => exact h
  | succ n ih => exact shift8_inj (ih h)

/-- The bytes of `m` as one 32-bit word. -/
def word : Bytes → BitVec 32
  | [] => 0
  | b :: bs => b.toBitVec.zeroExtend 32 ^^^ (word bs <<< 8)

theorem word_high (m : Bytes) : ∀ i, 8 * m.length ≤ i → (word m).getLsbD i = false := by
  induction m with
  | nil => intro i _; simp [word]
  | cons b bs ih =>
    intro i hi
    simp only [List.length_cons] at hi
    simp only [word, BitVec.getLsbD_xor, BitVec.getLsbD_shiftLeft]
    rw [ih (i - 8) (by omega)]
    have hb : b.toBitVec.getLsbD i = false := BitVec.getLsbD_of_ge _ _ (by omega)
    simp [BitVec.zeroExtend, BitVec.getLsbD_setWidth, hb]

theorem word_inj {a b : Bytes} (hl : a.length = b.length) (h4 : a.length ≤ 4) (h : word a = word b) :
    a = b := by
  induction a generalizing b with
  | nil => cases b with
    | nil => rfl
    | cons => simp at hl
  | cons x xs ih =>
    cases b with
    | nil => simp at hl
    | cons y ys =>
      simp only [List.length_cons, Nat.add_right_cancel_iff] at hl h4
      have hx : x = y := by
        apply UInt8.toBitVec_inj.mp
        apply BitVec.eq_of_getLsbD_eq
        intro i hi
        have := congrArg (fun w => BitVec.getLsbD w i) h
        simp only [word, BitVec.getLsbD_xor, BitVec.getLsbD_shiftLeft] at this
        have h32 : i < 32 := by omega
        simpa [hi, h32, BitVec.zeroExtend, BitVec.getLsbD_setWidth] using this
      have hw : word xs = word ys := by
        apply BitVec.eq_of_getLsbD_eq
        intro i hi
        by_cases h24 : i < 24
        · have := congrArg (fun w => BitVec.getLsbD w (i + 8)) h
          simp only [word, BitVec.getLsbD_xor, BitVec.getLsbD_shiftLeft, hx] at this
          have h32 : i + 8 < 32 := by omega
          have h8 : ¬ (i + 8 < 8) := by omega
          simpa [h32, h8] using this
        · rw [word_high xs i (by omega), word_high ys i (by omega)]
      rw [hx, ih hl (by omega) hw]

theorem run_eq_word (m : Bytes) (h4 : m.length ≤ 4) (s : BitVec 32) :
    run s m = shift8n m.length (s ^^^ word m) := by
  induction m generalizing s with
  | nil => simp [run, word, shift8n]
  | cons b bs ih =>
    simp only [List.length_cons] at h4
    have hrun : run s (b :: bs) = run (byteStep s b) bs := rfl
    rw [hrun, ih (by omega)]
    simp only [List.length_cons, shift8n, word]
    congr 1
    unfold byteStep
    rw [← BitVec.xor_assoc, shift8_xor (s ^^^ _) (word bs <<< 8),
      shift8_shl (word bs) (fun i hi => word_high bs i (by omega))]

theorem run_append (s : BitVec 32) (a b : Bytes) : run s (a ++ b) = run (run s a) b := by
  simp [run, List.foldl_append]

theorem byteStep_inj_state {s t : BitVec 32} (b : UInt8) (h : byteStep s b = byteStep t b) : s = t := by
  have := shift8_inj h
  have h2 := congrArg (fun x => x ^^^ (b.toBitVec.zeroExtend 32)) this
  simpa [BitVec.xor_assoc] using h2

theorem run_inj_state (m : Bytes) {s t : BitVec 32} (h : run s m = run t m) : s = t := by
  induction m generalizing s t with
  | nil => exact h
  | cons b bs ih => exact byteStep_inj_state b (ih h)

/-- Changing one run of at most four bytes changes the register. -/
theorem run_burst (s : BitVec 32) (a w w' b : Bytes) (hl : w.length = w'.length) (h4 : w.length ≤ 4)
    (h : run s (a ++ w ++ b) = run s (a ++ w' ++ b)) : w = w' := by
  simp only [run_append] at h
  have h1 := run_inj_state b h
  rw [run_eq_word w h4, run_eq_word w' (by omega), hl] at h1
  have h2 := shift8n_inj _ h1
  exact word_inj hl h4 (xor_left_cancel h2)

theorem word_toNat (m : Bytes) (h : m.length ≤ 4) : (word m).toNat = fromLe m := by
  induction m with
  | nil => rfl
  | cons b bs ih =>
    simp only [List.length_cons] at h
    have hlt : fromLe bs < 2 ^ 24 := by
      have h1 := fromLe_lt bs
      have h2 : 256 ^ bs.length ≤ 256 ^ 3 := Nat.pow_le_pow_right (by omega) (by omega)
      omega
    have e : word (b :: bs) = BitVec.ofNat 32 (b.toNat + 256 * fromLe bs) := by
      have hb := b.toNat_lt
      have hw : word bs <<< 8 = BitVec.ofNat 32 (256 * fromLe bs) := by
        apply BitVec.eq_of_toNat_eq
        rw [BitVec.toNat_shiftLeft, ih (by omega), BitVec.toNat_ofNat, Nat.shiftLeft_eq]
        congr 1; omega
      have hz : b.toBitVec.zeroExtend 32 = BitVec.ofNat 32 b.toNat := by
        apply BitVec.eq_of_toNat_eq
        simp [BitVec.zeroExtend]
      simp only [word, hw, hz]
      have hdis : BitVec.ofNat 32 b.toNat &&& BitVec.ofNat 32 (256 * fromLe bs) = 0#32 := by
        apply BitVec.eq_of_getLsbD_eq
        intro i hi
        simp only [BitVec.getLsbD_and, BitVec.getLsbD_ofNat, BitVec.getLsbD_zero]
        by_cases h8 : i < 8
        · have : (256 * fromLe bs).testBit i = false := by
            rw [show 256 * fromLe bs = 2 ^ 8 * fromLe bs by rfl, Nat.testBit_two_pow_mul]
            simp; omega
          simp [this]
        · have : b.toNat.testBit i = false := by
            apply Nat.testBit_lt_two_pow
            calc b.toNat < 2 ^ 8 := hb
              _ ≤ 2 ^ i := Nat.pow_le_pow_right (by omega) (by omega)
          simp [this]
      rw [BitVec.ofNat_add, BitVec.add_eq_or_of_and_eq_zero _ _ hdis]
      apply BitVec.eq_of_getLsbD_eq
      intro i hi
      have := congrArg (fun w => BitVec.getLsbD w i) hdis
      simp only [BitVec.getLsbD_and, BitVec.getLsbD_zero] at this
      simp only [BitVec.getLsbD_xor, BitVec.getLsbD_or]
      revert this
      cases (BitVec.ofNat 32 b.toNat).getLsbD i <;> cases (BitVec.ofNat 32 (256 * fromLe bs)).getLsbD i <;> simp
    rw [e, BitVec.toNat_ofNat]
    simp only [fromLe]
    have := b.toNat_lt
    rw [Nat.mod_eq_of_lt]
    omega

/-- Register value of every valid checksummed message. -/
def residue : BitVec 32 := shift8n 4 (BitVec.allOnes 32)

/-- The stored checksum is right exactly when the register over message and checksum is the residue. -/
theorem valid_iff_residue (p c : Bytes) (hc : c.length = 4) :
    c = crcBytes p ↔ run 0xFFFFFFFF#32 (p ++ c) = residue := by
  rw [run_append, run_eq_word c (by omega), hc]
  unfold residue crcBytes crc32
  generalize run 0xFFFFFFFF#32 p = r
  have hw : (word c).toNat = fromLe c := word_toNat c (by omega)
  constructor
  · intro h
    have : word c = ~~~ r := by
      apply BitVec.eq_of_toNat_eq
      rw [hw, h, fromLe_le_of_lt]
      exact (~~~ r).isLt
    rw [this]
    congr 1
    apply BitVec.eq_of_getLsbD_eq; intro i hi
    simp only [BitVec.getLsbD_xor, BitVec.getLsbD_allOnes, BitVec.getLsbD_not, hi, decide_true,
        Bool.true_and]
    cases r.getLsbD i <;> rfl
  · intro h
    have h1 := shift8n_inj 4 h
    have : word c = ~~~ r := by
      apply BitVec.eq_of_getLsbD_eq; intro i hi
      have := congrArg (fun w => BitVec.getLsbD w i) h1
      simp only [BitVec.getLsbD_xor, BitVec.getLsbD_allOnes, BitVec.getLsbD_not, hi, decide_true,
        Bool.true_and] at this ⊢
      revert this
      cases r.getLsbD i <;> cases (word c).getLsbD i <;> decide
    rw [← this, hw, ← hc, le_fromLe]

end Verif.Crc32
