import Verif.Model.Base64
import Verif.Spec.Base64

/-! # Base64: lemmas -/

set_option maxRecDepth 8000

namespace Verif.Base64
open Verif

theorem value_sym {n : Nat} (h : n < 64) : value (sym n) = some n := by
  have : ∀ n : Fin 64, value (sym n.val) = some n.val := by decide +kernel
  exact this ⟨n, h⟩

theorem sym_ne_pad {n : Nat} (h : n < 64) : sym n ≠ pad := by
  have : ∀ n : Fin 64, sym n.val ≠ pad := by decide +kernel
  exact this ⟨n, h⟩

theorem value_some {c : UInt8} {n : Nat} (h : value c = some n) : n < 64 ∧ c = sym n := by
  have : ∀ c : Fin 256, ∀ n, value (UInt8.ofNat c.val) = some n → n < 64 ∧ UInt8.ofNat c.val = sym n := by
    have h1 : ∀ c : Fin 256, (value (UInt8.ofNat c.val)).all (fun n => decide (n < 64) && decide (UInt8.ofNat c.val = sym n)) = true := by
      decide +kernel
    intro c n hn
    have := h1 c
    rw [hn] at this
    simpa using this
  have h2 := this ⟨c.toNat, c.toNat_lt⟩ n
  simp only [UInt8.ofNat_toNat] at h2
  exact h2 h

theorem sym_alphabet {n : Nat} (h : n < 64) : alphabet.getD n 0 = sym n := by
  have : ∀ n : Fin 64, alphabet.getD n.val 0 = sym n.val := by decide +kernel
  exact this ⟨n, h⟩

theorem u8_eq {a : UInt8} {n : Nat} (h : n = a.toNat) : UInt8.ofNat n = a := by rw [h, UInt8.ofNat_toNat]

theorem decode_encode (b : Bytes) : decode (encode b) = some b := by
  induction b using encode.induct with
  | case1 => rfl
  | case2 a =>
    have ha := a.toNat_lt
    have v1 := value_sym (n := a.toNat / 4) (by omega)
    have v2 := value_sym (n := a.toNat % 4 * 16) (by omega)
    simp only [encode, decode, v1, v2, and_self, if_true]
    rw [if_pos (by omega)]
    simp only [Option.some.injEq, List.cons.injEq, and_true]
    exact u8_eq (by omega)
  | case3 a b =>
    have ha := a.toNat_lt
    have hb := b.toNat_lt
    have v1 := value_sym (n := a.toNat / 4) (by omega)
    have v2 := value_sym (n := a.toNat % 4 * 16 + b.toNat / 16) (by omega)
    have v3 := value_sym (n := b.toNat % 16 * 4) (by omega)
    have n3 := sym_ne_pad (n := b.toNat % 16 * 4) (by omega)
    simp only [encode, decode, v1, v2, v3, n3, false_and, and_self, if_true, if_false]
    rw [if_pos (by omega)]
    simp only [Option.some.injEq, List.cons.injEq, and_true]
    exact ⟨u8_eq (by omega), u8_eq (by omega)⟩
  | case4 a b c r ih =>
    have ha := a.toNat_lt
    have hb := b.toNat_lt
    have hc := c.toNat_lt
    have v1 := value_sym (n := a.toNat / 4) (by omega)
    have v2 := value_sym (n := a.toNat % 4 * 16 + b.toNat / 16) (by omega)
    have v3 := value_sym (n := b.toNat % 16 * 4 + c.toNat / 64) (by omega)
    have v4 := value_sym (n := c.toNat % 64) (by omega)
    have n3 := sym_ne_pad (n := b.toNat % 16 * 4 + c.toNat / 64) (by omega)
    have n4 := sym_ne_pad (n := c.toNat % 64) (by omega)
    simp only [encode, decode, v1, v2, v3, v4, n3, n4, false_and, if_false, ih]
    simp only [Option.some.injEq, List.cons.injEq, and_true]
    exact ⟨u8_eq (by omega), u8_eq (by omega), u8_eq (by omega)⟩

theorem encode_decode : ∀ (t b : Bytes), decode t = some b → t = encode b
  | [], b, h => by simp only [decode, Option.some.injEq] at h; subst h; rfl
  | [_], b, h => by simp [decode] at h
  | [_, _], b, h => by simp [decode] at h
  | [_, _, _], b, h => by simp [decode] at h
  | a :: b :: c :: d :: r, bs, h => by
    rw [decode] at h
    split at h
    · rename_i x y hx hy
      obtain ⟨hx, rfl⟩ := value_some hx
      obtain ⟨hy, rfl⟩ := value_some hy
      by_cases h1 : c = pad ∧ d = pad ∧ r = []
      · rw [if_pos h1] at h
        obtain ⟨rfl, rfl, rfl⟩ := h1
        by_cases h2 : y % 16 = 0
        · simp only [if_pos h2, Option.some.injEq] at h
          subst h
          simp only [encode, UInt8.toNat_ofNat']
          simp only [List.cons.injEq, and_true]
          refine ⟨?_, ?_⟩ <;> (congr 1; omega)
        · rw [if_neg h2] at h; cases h
      · rw [if_neg h1] at h
        split at h
        · cases h
        · rename_i z hz
          obtain ⟨hz, rfl⟩ := value_some hz
          by_cases h3 : d = pad ∧ r = []
          · rw [if_pos h3] at h
            obtain ⟨rfl, rfl⟩ := h3
            by_cases h4 : z % 4 = 0
            · simp only [if_pos h4, Option.some.injEq] at h
              subst h
              simp only [encode, UInt8.toNat_ofNat']
              simp only [List.cons.injEq, and_true]
              refine ⟨?_, ?_, ?_⟩ <;> (congr 1; omega)
            · rw [if_neg h4] at h; cases h
          · rw [if_neg h3] at h
            split at h
            · rename_i u bs' hu hr
              obtain ⟨hu, rfl⟩ := value_some hu
              have ih := encode_decode r bs' hr
              simp only [Option.some.injEq] at h
              subst h
              simp only [encode, UInt8.toNat_ofNat', ← ih]
              simp only [List.cons.injEq, and_true]
              refine ⟨?_, ?_, ?_, ?_⟩ <;> (congr 1; omega)
            · cases h
    · cases h

theorem bits6 (n : Nat) : bits 6 n = [n / 32 % 2, n / 16 % 2, n / 8 % 2, n / 4 % 2, n / 2 % 2, n / 1 % 2] := rfl
theorem bits8 (n : Nat) : bits 8 n =
    [n / 128 % 2, n / 64 % 2, n / 32 % 2, n / 16 % 2, n / 8 % 2, n / 4 % 2, n / 2 % 2, n / 1 % 2] := rfl

theorem bits6_inj {a b : Nat} (ha : a < 64) (hb : b < 64) (h : bits 6 a = bits 6 b) : a = b := by
  simp only [bits6, List.cons.injEq, and_true] at h
  omega

theorem blocks_inj : ∀ (l l' : List Nat), (∀ s ∈ l, s < 64) → (∀ s ∈ l', s < 64) → l.flatMap (bits 6) = l'.flatMap (bits 6) → l = l'
  | [], [], _, _, _ => rfl
  | [], b :: l', _, _, h => by simp [bits6] at h
  | a :: l, [], _, _, h => by simp [bits6] at h
  | a :: l, b :: l', h1, h2, h => by
    simp only [List.flatMap_cons] at h
    obtain ⟨e1, e2⟩ := List.append_inj h (by simp [bits])
    rw [bits6_inj (h1 a List.mem_cons_self) (h2 b List.mem_cons_self) e1,
      blocks_inj l l' (fun s hs => h1 s (List.mem_cons_of_mem _ hs)) (fun s hs => h2 s (List.mem_cons_of_mem _ hs)) e2]

theorem blocks_length (l : List Nat) : (l.flatMap (bits 6)).length = 6 * l.length := by
  induction l with
  | nil => rfl
  | cons a l ih => simp only [List.flatMap_cons, List.length_append, ih, List.length_cons, bits6, List.length_nil]; omega

theorem octets_length (b : Bytes) : (b.flatMap fun x => bits 8 x.toNat).length = 8 * b.length := by
  induction b with
  | nil => rfl
  | cons a l ih =>
    simp only [List.flatMap_cons, List.length_append, ih, List.length_cons]
    simp only [bits8, List.length_cons, List.length_nil]
    omega

theorem encode_length (b : Bytes) : (encode b).length = (b.length + 2) / 3 * 4 := by
  induction b using encode.induct with
  | case1 => rfl
  | case2 a => simp [encode]
  | case3 a b => simp [encode]
  | case4 a b c r ih => simp only [encode, List.length_cons, ih]; omega

theorem denotes_encode (b : Bytes) : Denotes (encode b) b := by
  have main : ∃ (ss : List Nat) (p z : Nat), (∀ s ∈ ss, s < 64) ∧ p < 4 ∧ z < 6 ∧
      encode b = ss.map (fun s => alphabet.getD s 0) ++ List.replicate p 61 ∧
      ss.flatMap (bits 6) = b.flatMap (fun x => bits 8 x.toNat) ++ List.replicate z 0 := by
    induction b using encode.induct with
    | case1 => exact ⟨[], 0, 0, by simp, by decide, by decide, rfl, rfl⟩
    | case2 a =>
      have ha := a.toNat_lt
      refine ⟨[a.toNat / 4, a.toNat % 4 * 16], 2, 4, ?_, by decide, by decide, ?_, ?_⟩
      · simp only [List.mem_cons, List.not_mem_nil, or_false]; rintro s (rfl | rfl) <;> omega
      · simp only [List.map_cons, List.map_nil, sym_alphabet (n := a.toNat / 4) (by omega), sym_alphabet (n := a.toNat % 4 * 16) (by omega)]
        rfl
      · simp only [List.flatMap_cons, List.flatMap_nil, bits6, bits8, List.append_nil, List.cons_append, List.nil_append, List.replicate,
          List.cons.injEq, and_true]
        omega
    | case3 a b =>
      have ha := a.toNat_lt
      have hb := b.toNat_lt
      refine ⟨[a.toNat / 4, a.toNat % 4 * 16 + b.toNat / 16, b.toNat % 16 * 4], 1, 2, ?_, by decide, by decide, ?_, ?_⟩
      · simp only [List.mem_cons, List.not_mem_nil, or_false]; rintro s (rfl | rfl | rfl) <;> omega
      · simp only [List.map_cons, List.map_nil, sym_alphabet (n := a.toNat / 4) (by omega),
          sym_alphabet (n := a.toNat % 4 * 16 + b.toNat / 16) (by omega), sym_alphabet (n := b.toNat % 16 * 4) (by omega)]
        rfl
      · simp only [List.flatMap_cons, List.flatMap_nil, bits6, bits8, List.append_nil, List.cons_append, List.nil_append, List.replicate,
          List.cons.injEq, and_true]
        omega
    | case4 a b c r ih =>
      obtain ⟨ss, p, z, h1, h2, h3, h4, h5⟩ := ih
      have ha := a.toNat_lt
      have hb := b.toNat_lt
      have hc := c.toNat_lt
      refine ⟨a.toNat / 4 :: (a.toNat % 4 * 16 + b.toNat / 16) :: (b.toNat % 16 * 4 + c.toNat / 64) :: (c.toNat % 64) :: ss, p, z, ?_, h2, h3,
        ?_, ?_⟩
      · simp only [List.mem_cons]; rintro s (rfl | rfl | rfl | rfl | hs) <;> first | omega | exact h1 s hs
      · simp only [List.map_cons, sym_alphabet (n := a.toNat / 4) (by omega),
          sym_alphabet (n := a.toNat % 4 * 16 + b.toNat / 16) (by omega), sym_alphabet (n := b.toNat % 16 * 4 + c.toNat / 64) (by omega),
          sym_alphabet (n := c.toNat % 64) (by omega), encode, h4, List.cons_append]
      · simp only [List.flatMap_cons, h5, bits6, bits8, List.cons_append, List.nil_append, List.cons.injEq, and_true]
        omega
  obtain ⟨ss, p, z, h1, h2, h3, h4, h5⟩ := main
  exact ⟨ss, p, z, h1, h2, h3, by rw [encode_length]; omega, h4, h5⟩

theorem denotes_unique {t t' b : Bytes} (h : Denotes t b) (h' : Denotes t' b) : t = t' := by
  obtain ⟨ss, p, z, h1, h2, h3, h4, h5, h6⟩ := h
  obtain ⟨ss', p', z', h1', h2', h3', h4', h5', h6'⟩ := h'
  have l1 := congrArg List.length h6
  have l2 := congrArg List.length h6'
  rw [blocks_length, List.length_append, octets_length, List.length_replicate] at l1 l2
  have hz : z = z' := by omega
  subst hz
  have hs : ss = ss' := blocks_inj ss ss' h1 h1' (by rw [h6, h6'])
  subst hs
  rw [h5] at h4
  rw [h5'] at h4'
  simp only [List.length_append, List.length_map, List.length_replicate] at h4 h4'
  have hp : p = p' := by omega
  subst hp
  rw [h5, h5']

end Verif.Base64
