import Verif.Model.Request
import Verif.Spec.Request

/-! # The reader of requests and the grammar (lemmas for C102) -/

set_option maxRecDepth 8000

namespace Verif.Request
open Verif Verif.Rpc

/-! ### White space -/

theorem isWs_iff {c : Char} : isWs c = true ↔ c = ' ' ∨ c = '\t' ∨ c = '\n' ∨ c = '\r' := by
  simp only [isWs, Bool.or_eq_true, decide_eq_true_eq]
  constructor
  · rintro (((h | h) | h) | h) <;> simp [h]
  · rintro (h | h | h | h) <;> simp [h]

theorem skip_ws {w t : Text} (h : Ws w) : skip (w ++ t) = skip t := by
  induction w with
  | nil => rfl
  | cons c w ih =>
    have hc : isWs c = true := isWs_iff.mpr (h c (by simp))
    rw [List.cons_append, skip, List.dropWhile_cons_of_pos hc]
    exact ih fun c hc => h c (by simp [hc])

theorem skip_cons {c : Char} {r : Text} (h : isWs c = false) : skip (c :: r) = c :: r := by
  rw [skip, List.dropWhile_cons_of_neg (by simp [h])]

theorem skip_to {w : Text} {c : Char} {r : Text} (hw : Ws w) (h : isWs c = false) : skip (w ++ c :: r) = c :: r := by
  rw [skip_ws hw, skip_cons h]

theorem skip_split (t : Text) : ∃ w, Ws w ∧ t = w ++ skip t :=
  ⟨t.takeWhile isWs, fun c hc => isWs_iff.mp (List.all_eq_true.mp (List.all_takeWhile (p := isWs) (l := t)) c hc),
    (List.takeWhile_append_dropWhile (p := isWs) (l := t)).symm⟩

theorem skip_eq {t : Text} {u : Text} (h : skip t = u) : ∃ w, Ws w ∧ t = w ++ u := by
  obtain ⟨w, hw, e⟩ := skip_split t
  exact ⟨w, hw, by rw [← h]; exact e⟩

theorem skip_all {w : Text} (h : Ws w) : skip w = [] := by
  have := skip_ws (t := []) h
  rwa [List.append_nil] at this

/-! ### Hexadecimal numbers -/

theorem hexDigit_small : ∀ k ∈ List.range 128, ∀ n ∈ List.range 16, hexDigit (Char.ofNat k) = some n → (Char.ofNat k, n) ∈ hexTable := by
  decide +kernel

theorem hexDigit_lt {c : Char} {n : Nat} (h : hexDigit c = some n) : c.toNat < 128 ∧ n < 16 := by
  unfold hexDigit at h
  split at h
  · simp only [Option.some.injEq] at h; omega
  · split at h
    · simp only [Option.some.injEq] at h; omega
    · split at h
      · simp only [Option.some.injEq] at h; omega
      · simp at h

theorem hexDigit_table : ∀ p ∈ hexTable, hexDigit p.1 = some p.2 := by decide +kernel

theorem hexDigit_iff {c : Char} {n : Nat} : hexDigit c = some n ↔ (c, n) ∈ hexTable := by
  constructor
  · intro h
    obtain ⟨h1, h2⟩ := hexDigit_lt h
    have := hexDigit_small c.toNat (List.mem_range.mpr h1) n (List.mem_range.mpr h2)
    rw [Char.ofNat_toNat] at this
    exact this h
  · intro h
    exact hexDigit_table _ h

theorem hex4_sound {t r : Text} {n : Nat} (h : hex4 t = some (n, r)) : ∃ x, t = x ++ r ∧ Hex4 x n := by
  unfold hex4 at h
  split at h
  · rename_i a b c d r'
    simp only [Option.bind_eq_some_iff, Option.some.injEq, Prod.mk.injEq] at h
    obtain ⟨x, hx, y, hy, z, hz, w, hw, e, rfl⟩ := h
    exact ⟨[a, b, c, d], rfl, a, b, c, d, x, y, z, w, rfl, hexDigit_iff.mp hx, hexDigit_iff.mp hy, hexDigit_iff.mp hz,
      hexDigit_iff.mp hw, by omega⟩
  · simp at h

theorem hex4_complete {x r : Text} {n : Nat} (h : Hex4 x n) : hex4 (x ++ r) = some (n, r) := by
  obtain ⟨a, b, c, d, x, y, z, w, rfl, hx, hy, hz, hw, rfl⟩ := h
  simp only [List.cons_append, List.nil_append, hex4, hexDigit_iff.mpr hx, hexDigit_iff.mpr hy, hexDigit_iff.mpr hz, hexDigit_iff.mpr hw,
    Option.bind_some, Option.some.injEq, Prod.mk.injEq, and_true]
  omega

theorem Hex4.lt {x : Text} {n : Nat} (h : Hex4 x n) : n < 65536 := by
  obtain ⟨a, b, c, d, x, y, z, w, rfl, hx, hy, hz, hw, rfl⟩ := h
  have := (hexDigit_lt (hexDigit_iff.mpr hx)).2
  have := (hexDigit_lt (hexDigit_iff.mpr hy)).2
  have := (hexDigit_lt (hexDigit_iff.mpr hz)).2
  have := (hexDigit_lt (hexDigit_iff.mpr hw)).2
  omega

/-! ### Strings -/

theorem short_iff {e c : Char} : short e = some c ↔ (e, c) ∈ shortTable := by
  constructor
  · intro h
    unfold short at h
    repeat' split at h
    all_goals first
      | (simp only [Option.some.injEq] at h; subst_vars; decide)
      | simp at h
  · intro h
    have : ∀ p ∈ shortTable, short p.1 = some p.2 := by decide
    exact this _ h

theorem short_not_u {e c : Char} (h : (e, c) ∈ shortTable) : e ≠ 'u' := by
  have : ∀ p ∈ shortTable, p.1 ≠ 'u' := by decide
  exact this _ h

theorem toNat_ofNat {n : Nat} (h : n < 0xD800 ∨ (0xDFFF < n ∧ n < 0x110000)) : (Char.ofNat n).toNat = n := by
  have hv : n.isValidChar := h
  rw [Char.ofNat, dif_pos hv]
  rfl

theorem char_valid (c : Char) : c.toNat < 0xD800 ∨ (0xDFFF < c.toNat ∧ c.toNat < 0x110000) := c.valid

theorem uni_sound {t r : Text} {c : Char} (h : uni t = some (c, r)) : ∃ u, '\\' :: 'u' :: t = u ++ r ∧ Spells u c := by
  unfold uni at h
  simp only [Option.bind_eq_some_iff] at h
  obtain ⟨⟨n, r1⟩, h1, h⟩ := h
  obtain ⟨x, rfl, hx⟩ := hex4_sound h1
  have hlt := hx.lt
  dsimp only at h
  split at h
  · simp at h
  · split at h
    · simp only [Option.some.injEq, Prod.mk.injEq] at h
      obtain ⟨rfl, rfl⟩ := h
      refine ⟨'\\' :: 'u' :: x, rfl, .bmp ?_⟩
      rw [toNat_ofNat (by omega)]; exact hx
    · split at h
      · rename_i hs
        simp only [Option.bind_eq_some_iff] at h
        obtain ⟨⟨m, r2⟩, h2, h⟩ := h
        obtain ⟨y, hy, hm⟩ := hex4_sound h2
        dsimp only at h
        split at h
        · simp at h
        · simp only [Option.some.injEq, Prod.mk.injEq] at h
          obtain ⟨rfl, rfl⟩ := h
          have e : r1 = '\\' :: 'u' :: (y ++ r2) := by
            rw [← List.take_append_drop 2 r1, hs, hy]; rfl
          refine ⟨'\\' :: 'u' :: (x ++ '\\' :: 'u' :: y), by rw [e]; simp, ?_⟩
          have := hm.lt
          exact .pair hx hm (by omega) (by omega) (by omega) (by omega) (by rw [toNat_ofNat (by omega)]; omega)
      · simp at h

theorem unit_sound {c0 c : Char} {t r : Text} (hq : c0 ≠ '"') (h : unit (c0 :: t) = some (c, r)) : ∃ u, c0 :: t = u ++ r ∧ Spells u c := by
  unfold unit at h
  dsimp only at h
  split at h
  · rename_i hb
    subst hb
    split at h
    · simp at h
    · rename_i e t'
      split at h
      · rename_i hu; subst hu
        exact uni_sound h
      · rw [Option.map_eq_some_iff] at h
        obtain ⟨x, hx, h⟩ := h
        simp only [Prod.mk.injEq] at h
        obtain ⟨rfl, rfl⟩ := h
        exact ⟨['\\', e], rfl, .short (short_iff.mp hx)⟩
  · rename_i hb
    split at h
    · simp at h
    · simp only [Option.some.injEq, Prod.mk.injEq] at h
      obtain ⟨rfl, rfl⟩ := h
      exact ⟨[c0], rfl, .plain ⟨hq, hb, by omega⟩⟩

theorem unit_complete {u : Text} {c : Char} (h : Spells u c) (r : Text) :
    unit (u ++ r) = some (c, r) ∧ ∃ c0 u', u = c0 :: u' ∧ c0 ≠ '"' := by
  cases h with
  | plain h =>
    refine ⟨?_, c, [], rfl, h.1⟩
    have := h.2.2
    simp only [List.cons_append, List.nil_append, unit, if_neg h.2.1]
    rw [if_neg (by omega)]
  | short h =>
    refine ⟨?_, '\\', _, rfl, by decide⟩
    simp only [List.cons_append, List.nil_append, unit, if_true, if_neg (short_not_u h), short_iff.mpr h, Option.map_some]
  | @bmp x _ h =>
    refine ⟨?_, '\\', _, rfl, by decide⟩
    have hv := char_valid c
    have hlt := h.lt
    simp only [List.cons_append, unit, if_true, uni, hex4_complete h, Option.bind_some]
    rw [if_neg (by omega), if_pos (by omega), Char.ofNat_toNat]
  | @pair x y n m _ hn hm h1 h2 h3 h4 hc =>
    refine ⟨?_, '\\', _, rfl, by decide⟩
    simp only [List.cons_append, List.append_assoc, unit, if_true, uni, hex4_complete hn, Option.bind_some]
    rw [if_neg (by omega), if_neg (by omega), if_pos (by rfl)]
    show (hex4 (y ++ r)).bind _ = _
    rw [hex4_complete hm, Option.bind_some]
    dsimp only
    rw [if_neg (by omega)]
    have : (n - 0xD800) * 1024 + (m - 0xDC00) + 0x10000 = c.toNat := by omega
    rw [this, Char.ofNat_toNat]

theorem str_sound {f : Nat} {t s r : Text} (h : str f t = some (s, r)) : ∃ i, t = i ++ '"' :: r ∧ Inside i s := by
  induction f generalizing t s with
  | zero => simp [str] at h
  | succ f ih =>
    cases t with
    | nil => simp [str] at h
    | cons c t =>
      rw [str] at h
      split at h
      · rename_i hc; subst hc
        simp only [Option.some.injEq, Prod.mk.injEq] at h
        obtain ⟨rfl, rfl⟩ := h
        exact ⟨[], rfl, .nil⟩
      · rename_i hc
        simp only [Option.bind_eq_some_iff, Option.map_eq_some_iff, Prod.mk.injEq] at h
        obtain ⟨⟨x, r1⟩, h1, ⟨s1, r2⟩, h2, rfl, rfl⟩ := h
        obtain ⟨u, hu, hs⟩ := unit_sound hc h1
        obtain ⟨i, hi, hin⟩ := ih h2
        exact ⟨u ++ i, by rw [hu, List.append_assoc]; exact congrArg (u ++ ·) hi, .cons hs hin⟩

theorem str_complete {i s : Text} (h : Inside i s) : ∀ (f : Nat) (r : Text), i.length < f → str f (i ++ '"' :: r) = some (s, r) := by
  induction h with
  | nil =>
    intro f r hf
    obtain ⟨f, rfl⟩ : ∃ g, f = g + 1 := ⟨f - 1, by simp at hf; omega⟩
    rw [List.nil_append, str, if_pos rfl]
  | cons hs _ ih =>
    rename_i u c j s _
    intro f r hf
    obtain ⟨h1, c0, u', rfl, hq⟩ := unit_complete hs (j ++ '"' :: r)
    obtain ⟨f, rfl⟩ : ∃ g, f = g + 1 := ⟨f - 1, by simp at hf; omega⟩
    rw [List.append_assoc, List.cons_append, str, if_neg hq, ← List.cons_append, h1]
    simp only [List.length_append, List.length_cons] at hf
    simp only [Option.bind_some, ih f r (by omega), Option.map_some]

theorem unitIgn_sound {c0 : Char} {t r : Text} (hq : c0 ≠ '"') (h : unitIgn (c0 :: t) = some r) :
    ∃ u, c0 :: t = u ++ r ∧ ∀ i, Loose i → Loose (u ++ i) := by
  unfold unitIgn at h
  dsimp only at h
  split at h
  · rename_i hb
    subst hb
    split at h
    · simp at h
    · rename_i e t'
      split at h
      · rename_i hu; subst hu
        simp only [Option.map_eq_some_iff] at h
        obtain ⟨⟨n, r1⟩, h1, rfl⟩ := h
        obtain ⟨x, rfl, hx⟩ := hex4_sound h1
        exact ⟨'\\' :: 'u' :: x, rfl, fun i hi => .hex hx hi⟩
      · rw [Option.map_eq_some_iff] at h
        obtain ⟨x, hx, rfl⟩ := h
        exact ⟨['\\', e], rfl, fun i hi => .short (short_iff.mp hx) hi⟩
  · rename_i hb
    split at h
    · simp at h
    · simp only [Option.some.injEq] at h
      subst h
      exact ⟨[c0], rfl, fun i hi => .plain ⟨hq, hb, by omega⟩ hi⟩

theorem strIgn_sound {f : Nat} {t r : Text} (h : strIgn f t = some r) : ∃ i, t = i ++ '"' :: r ∧ Loose i := by
  induction f generalizing t with
  | zero => simp [strIgn] at h
  | succ f ih =>
    cases t with
    | nil => simp [strIgn] at h
    | cons c t =>
      rw [strIgn] at h
      split at h
      · rename_i hc; subst hc
        simp only [Option.some.injEq] at h
        subst h
        exact ⟨[], rfl, .nil⟩
      · rename_i hc
        simp only [Option.bind_eq_some_iff] at h
        obtain ⟨r1, h1, h2⟩ := h
        obtain ⟨u, hu, hs⟩ := unitIgn_sound hc h1
        obtain ⟨i, hi, hin⟩ := ih h2
        exact ⟨u ++ i, by rw [hu, hi, List.append_assoc], hs i hin⟩

theorem strIgn_complete {i : Text} (h : Loose i) : ∀ (f : Nat) (r : Text), i.length < f → strIgn f (i ++ '"' :: r) = some r := by
  induction h with
  | nil =>
    intro f r hf
    obtain ⟨f, rfl⟩ : ∃ g, f = g + 1 := ⟨f - 1, by simp at hf; omega⟩
    rw [List.nil_append, strIgn, if_pos rfl]
  | plain hp _ ih =>
    rename_i c j _
    intro f r hf
    obtain ⟨f, rfl⟩ : ∃ g, f = g + 1 := ⟨f - 1, by simp at hf; omega⟩
    simp only [List.length_cons] at hf
    have := hp.2.2
    rw [List.cons_append, strIgn, if_neg hp.1]
    simp only [unitIgn, if_neg hp.2.1]
    rw [if_neg (by omega), Option.bind_some, ih f r (by omega)]
  | short hs _ ih =>
    rename_i e c j _
    intro f r hf
    obtain ⟨f, rfl⟩ : ∃ g, f = g + 1 := ⟨f - 1, by simp at hf; omega⟩
    simp only [List.length_cons] at hf
    rw [List.cons_append, List.cons_append, strIgn, if_neg (by decide)]
    simp only [unitIgn, if_true, if_neg (short_not_u hs), short_iff.mpr hs, Option.map_some, Option.bind_some]
    exact ih f r (by omega)
  | hex hh _ ih =>
    rename_i x n j _
    intro f r hf
    obtain ⟨f, rfl⟩ : ∃ g, f = g + 1 := ⟨f - 1, by simp at hf; omega⟩
    simp only [List.length_cons, List.length_append] at hf
    rw [List.cons_append, List.cons_append, List.append_assoc, strIgn, if_neg (by decide)]
    simp only [unitIgn, if_true, hex4_complete hh, Option.map_some, Option.bind_some]
    exact ih f r (by omega)

theorem Inside.loose {i s : Text} (h : Inside i s) : Loose i := by
  induction h with
  | nil => exact .nil
  | cons hs _ ih =>
    cases hs with
    | plain h => exact .plain h ih
    | short h => exact .short h ih
    | bmp h => exact .hex h ih
    | pair hn hm =>
      rw [List.cons_append, List.cons_append, List.append_assoc]
      exact .hex hn (.hex hm ih)

theorem Quoted.value {t s : Text} (h : Quoted t s) : Value t := by
  obtain ⟨i, rfl, hi⟩ := h
  exact .string hi.loose

theorem strVal_sound {t s r : Text} (h : strVal t = some (s, r)) : ∃ a q, t = a ++ (q ++ r) ∧ Ws a ∧ Quoted q s := by
  unfold strVal at h
  cases hk : skip t with
  | nil => rw [hk] at h; simp at h
  | cons c r0 =>
    rw [hk] at h
    dsimp only at h
    obtain ⟨w, hw, rfl⟩ := skip_eq hk
    split at h
    · rename_i hc; subst hc
      obtain ⟨i, rfl, hi⟩ := str_sound h
      exact ⟨w, '"' :: (i ++ ['"']), by simp, hw, i, rfl, hi⟩
    · simp at h

theorem strVal_complete {a q s r : Text} (ha : Ws a) (h : Quoted q s) : strVal (a ++ (q ++ r)) = some (s, r) := by
  obtain ⟨i, rfl, hi⟩ := h
  unfold strVal
  have e : a ++ ('"' :: (i ++ ['"']) ++ r) = a ++ '"' :: (i ++ '"' :: r) := by simp
  rw [e, skip_to ha (by decide)]
  dsimp only
  rw [if_pos rfl]
  exact str_complete hi _ _ (by simp only [List.length_append, List.length_cons]; omega)

/-! ### Numbers -/

theorem isDig_iff {c : Char} : isDig c = true ↔ c ∈ ['0', '1', '2', '3', '4', '5', '6', '7', '8', '9'] := by
  constructor
  · intro h
    have hs : ∀ k, k < 128 → isDig (Char.ofNat k) = true → Char.ofNat k ∈ ['0', '1', '2', '3', '4', '5', '6', '7', '8', '9'] := by
      decide +kernel
    have hl : c.toNat < 128 := by
      simp only [isDig, Bool.and_eq_true, decide_eq_true_eq] at h; omega
    have := hs c.toNat hl
    rw [Char.ofNat_toNat] at this
    exact this h
  · intro h
    have : ∀ c ∈ ['0', '1', '2', '3', '4', '5', '6', '7', '8', '9'], isDig c = true := by decide
    exact this c h

/-- What follows does not begin with a digit. -/
def NoDig (r : Text) : Prop := ∀ c, r.head? = some c → isDig c = false

theorem NoDig.drop {r : Text} (h : NoDig r) : r.dropWhile isDig = r := by
  cases r with
  | nil => rfl
  | cons c r => rw [List.dropWhile_cons_of_neg (by simp [h c rfl])]

theorem dropDigits {d r : Text} (hd : ∀ c ∈ d, isDig c = true) (h : NoDig r) : (d ++ r).dropWhile isDig = r := by
  induction d with
  | nil => exact h.drop
  | cons c d ih => rw [List.cons_append, List.dropWhile_cons_of_pos (hd c (by simp)), ih fun c hc => hd c (by simp [hc])]

theorem digits_sound {t r : Text} (h : digits t = some r) : ∃ d, t = d ++ r ∧ Digits d := by
  cases t with
  | nil => simp [digits] at h
  | cons c t =>
    rw [digits] at h
    split at h
    · rename_i hc
      simp only [Option.some.injEq] at h
      subst h
      refine ⟨c :: t.takeWhile isDig, by rw [List.cons_append, List.takeWhile_append_dropWhile], by simp, ?_⟩
      intro x hx
      rcases List.mem_cons.mp hx with rfl | hx
      · exact isDig_iff.mp hc
      · exact isDig_iff.mp (List.all_eq_true.mp (List.all_takeWhile (p := isDig) (l := t)) x hx)
    · simp at h

theorem digits_complete {d r : Text} (hd : Digits d) (h : NoDig r) : digits (d ++ r) = some r := by
  obtain ⟨hn, ha⟩ := hd
  cases d with
  | nil => exact absurd rfl hn
  | cons c d =>
    rw [List.cons_append, digits, if_pos (isDig_iff.mpr (ha c (by simp))), dropDigits (fun x hx => isDig_iff.mpr (ha x (by simp [hx]))) h]

/-- The exponent of a number, or none. -/
def ExpPart (exp : Text) : Prop :=
  exp = [] ∨ ∃ e s d, Digits d ∧ (e = 'e' ∨ e = 'E') ∧ (s = [] ∨ s = ['+'] ∨ s = ['-']) ∧ exp = e :: (s ++ d)

/-- The decimals of a number, or none. -/
def FracPart (frac : Text) : Prop := frac = [] ∨ ∃ d, Digits d ∧ frac = '.' :: d

/-- What follows cannot continue a number. -/
def Stop (r : Text) : Prop := ∀ c, r.head? = some c → isDig c = false ∧ c ≠ '.' ∧ c ≠ 'e' ∧ c ≠ 'E'

theorem Stop.noDig {r : Text} (h : Stop r) : NoDig r := fun c hc => (h c hc).1

theorem expo_sound {t r : Text} (h : expo t = some r) : ∃ s d, t = s ++ (d ++ r) ∧ Digits d ∧ (s = [] ∨ s = ['+'] ∨ s = ['-']) := by
  cases t with
  | nil => simp [expo] at h
  | cons c t =>
    rw [expo] at h
    split at h
    · rename_i hc
      obtain ⟨d, rfl, hd⟩ := digits_sound h
      exact ⟨[c], d, rfl, hd, by rcases hc with rfl | rfl <;> simp⟩
    · obtain ⟨d, e, hd⟩ := digits_sound h
      exact ⟨[], d, e, hd, by simp⟩

theorem expo_complete {s d r : Text} (hs : s = [] ∨ s = ['+'] ∨ s = ['-']) (hd : Digits d) (h : NoDig r) : expo (s ++ (d ++ r)) = some r := by
  rcases hs with rfl | rfl | rfl
  · rw [List.nil_append]
    have := digits_complete hd h
    obtain ⟨hn, ha⟩ := hd
    cases d with
    | nil => exact absurd rfl hn
    | cons c d =>
      have hc := ha c (by simp)
      rw [List.cons_append, expo, if_neg]
      · exact this
      · rintro (rfl | rfl) <;> exact absurd hc (by decide)
  · rw [List.cons_append, List.nil_append, expo, if_pos (by simp)]; exact digits_complete hd h
  · rw [List.cons_append, List.nil_append, expo, if_pos (by simp)]; exact digits_complete hd h

theorem optExpo_sound {t r : Text} (h : optExpo t = some r) : ∃ e, t = e ++ r ∧ ExpPart e := by
  cases t with
  | nil => simp only [optExpo, Option.some.injEq] at h; subst h; exact ⟨[], rfl, .inl rfl⟩
  | cons c t =>
    rw [optExpo] at h
    split at h
    · rename_i hc
      obtain ⟨s, d, rfl, hd, hs⟩ := expo_sound h
      exact ⟨c :: (s ++ d), by simp, .inr ⟨c, s, d, hd, hc, hs, rfl⟩⟩
    · simp only [Option.some.injEq] at h; subst h; exact ⟨[], rfl, .inl rfl⟩

theorem optExpo_complete {e r : Text} (he : ExpPart e) (h : Stop r) : optExpo (e ++ r) = some r := by
  rcases he with rfl | ⟨x, s, d, hd, hx, hs, rfl⟩
  · cases r with
    | nil => rfl
    | cons c r =>
      have := h c rfl
      rw [List.nil_append, optExpo, if_neg (by rintro (h | h) <;> simp_all)]
  · rw [List.cons_append, optExpo, if_pos hx, List.append_assoc]
    exact expo_complete hs hd h.noDig

theorem exp_head {e r : Text} (he : ExpPart e) (h : Stop r) : ∀ c, (e ++ r).head? = some c → isDig c = false ∧ c ≠ '.' := by
  rcases he with rfl | ⟨x, s, d, hd, hx, hs, rfl⟩
  · intro c hc; exact ⟨(h c hc).1, (h c hc).2.1⟩
  · intro c hc
    simp only [List.cons_append, List.head?_cons, Option.some.injEq] at hc
    subst hc
    rcases hx with rfl | rfl <;> decide

theorem frac_sound {t r : Text} (h : frac t = some r) : ∃ fr e, t = fr ++ (e ++ r) ∧ FracPart fr ∧ ExpPart e := by
  cases t with
  | nil => simp only [frac, Option.some.injEq] at h; subst h; exact ⟨[], [], rfl, .inl rfl, .inl rfl⟩
  | cons c t =>
    rw [frac] at h
    split at h
    · rename_i hc; subst hc
      rw [Option.bind_eq_some_iff] at h
      obtain ⟨r1, h1, h2⟩ := h
      obtain ⟨d, rfl, hd⟩ := digits_sound h1
      obtain ⟨e, rfl, he⟩ := optExpo_sound h2
      exact ⟨'.' :: d, e, rfl, .inr ⟨d, hd, rfl⟩, he⟩
    · obtain ⟨e, e', he⟩ := optExpo_sound h
      exact ⟨[], e, e', .inl rfl, he⟩

theorem frac_complete {fr e r : Text} (hf : FracPart fr) (he : ExpPart e) (h : Stop r) : frac (fr ++ (e ++ r)) = some r := by
  have hh := exp_head he h
  have ho := optExpo_complete he h
  rcases hf with rfl | ⟨d, hd, rfl⟩
  · rw [List.nil_append]
    cases hx : e ++ r with
    | nil => rw [hx] at ho; exact ho
    | cons c x =>
      rw [hx] at ho hh
      rw [frac, if_neg (hh c rfl).2]
      exact ho
  · rw [List.cons_append, frac, if_pos rfl, digits_complete hd fun c hc => (hh c hc).1, Option.bind_some, ho]

theorem frac_head {fr e r : Text} (hf : FracPart fr) (he : ExpPart e) (h : Stop r) : NoDig (fr ++ (e ++ r)) := by
  rcases hf with rfl | ⟨d, hd, rfl⟩
  · exact fun c hc => (exp_head he h c hc).1
  · intro c hc
    simp only [List.cons_append, List.head?_cons, Option.some.injEq] at hc
    subst hc; decide

theorem num_zero {X : Text} (h : NoDig X) : num ('0' :: X) = frac X := by
  cases X with
  | nil => rfl
  | cons d X => simp [num, h d rfl]

theorem num_sound {t r : Text} (h : num t = some r) : ∃ i fr e, t = i ++ (fr ++ (e ++ r)) ∧ (Digits i ∧ (i = ['0'] ∨ i.head? ≠ some '0')) ∧
    FracPart fr ∧ ExpPart e := by
  cases t with
  | nil => simp [num] at h
  | cons c t =>
    by_cases hc : c = '0'
    · subst hc
      have hn : NoDig t := by
        intro d hd
        cases t with
        | nil => simp at hd
        | cons x t =>
          simp only [List.head?_cons, Option.some.injEq] at hd
          subst hd
          cases hx : isDig x with
          | false => rfl
          | true => simp [num, hx] at h
      rw [num_zero hn] at h
      obtain ⟨fr, e, rfl, hf, he⟩ := frac_sound h
      exact ⟨['0'], fr, e, rfl, ⟨⟨by simp, by decide⟩, .inl rfl⟩, hf, he⟩
    · unfold num at h
      dsimp only at h
      rw [if_neg hc] at h
      split at h
      · rename_i hd
        obtain ⟨fr, e, he0, hf, he⟩ := frac_sound h
        refine ⟨c :: t.takeWhile isDig, fr, e, ?_, ⟨⟨by simp, ?_⟩, .inr (by simpa using hc)⟩, hf, he⟩
        · rw [List.cons_append, ← he0, List.takeWhile_append_dropWhile]
        · intro x hx
          rcases List.mem_cons.mp hx with rfl | hx
          · exact isDig_iff.mp hd
          · exact isDig_iff.mp (List.all_eq_true.mp (List.all_takeWhile (p := isDig) (l := t)) x hx)
      · simp at h

theorem num_complete {i fr e r : Text} (hi : Digits i ∧ (i = ['0'] ∨ i.head? ≠ some '0')) (hf : FracPart fr) (he : ExpPart e) (h : Stop r) :
    num (i ++ (fr ++ (e ++ r))) = some r := by
  have hn := frac_head hf he h
  have hfr := frac_complete hf he h
  obtain ⟨⟨hne, ha⟩, hz⟩ := hi
  rcases hz with rfl | hz
  · rw [List.cons_append, List.nil_append, num_zero hn]; exact hfr
  · cases i with
    | nil => exact absurd rfl hne
    | cons c i =>
      have hc : c ≠ '0' := by simpa using hz
      rw [List.cons_append]
      unfold num
      dsimp only
      rw [if_neg hc, if_pos (isDig_iff.mpr (ha c (by simp))),
        dropDigits (fun x hx => isDig_iff.mpr (ha x (by simp [hx]))) hn]
      exact hfr

/-! ### Values that are skipped -/

theorem word_sound {w t r : Text} (h : word w t = some r) : t = w ++ r := by
  unfold word at h
  split at h
  · rename_i hw
    simp only [Option.some.injEq] at h
    subst h
    have := (List.take_append_drop w.length t).symm
    rwa [hw] at this
  · simp at h

theorem word_complete (w r : Text) : word w (w ++ r) = some r := by
  simp [word]

theorem keyIgn_sound {t r : Text} (h : keyIgn t = some r) : ∃ a i b, t = a ++ '"' :: (i ++ '"' :: (b ++ ':' :: r)) ∧ Ws a ∧ Loose i ∧ Ws b := by
  unfold keyIgn at h
  cases hk : skip t with
  | nil => rw [hk] at h; simp at h
  | cons c r0 =>
    rw [hk] at h
    dsimp only at h
    obtain ⟨a, ha, rfl⟩ := skip_eq hk
    split at h
    · rename_i hc; subst hc
      rw [Option.bind_eq_some_iff] at h
      obtain ⟨r1, h1, h⟩ := h
      obtain ⟨i, rfl, hi⟩ := strIgn_sound h1
      cases hk2 : skip r1 with
      | nil => rw [hk2] at h; simp at h
      | cons c r2 =>
        rw [hk2] at h
        dsimp only at h
        obtain ⟨b, hb, rfl⟩ := skip_eq hk2
        split at h
        · rename_i hc; subst hc
          simp only [Option.some.injEq] at h
          subst h
          exact ⟨a, i, b, rfl, ha, hi, hb⟩
        · simp at h
    · simp at h

theorem keyIgn_complete {a i b r : Text} (ha : Ws a) (hi : Loose i) (hb : Ws b) :
    keyIgn (a ++ '"' :: (i ++ '"' :: (b ++ ':' :: r))) = some r := by
  unfold keyIgn
  rw [skip_to ha (by decide)]
  dsimp only
  rw [if_pos rfl, strIgn_complete hi _ _ (by simp only [List.length_append, List.length_cons]; omega), Option.bind_some,
    skip_to hb (by decide)]
  dsimp only
  rw [if_pos rfl]

theorem val_all_sound (f : Nat) :
    (∀ t r, val f t = some r → ∃ a v, t = a ++ (v ++ r) ∧ Ws a ∧ Value v) ∧
    (∀ t r, items f t = some r → ∃ m, t = m ++ ']' :: r ∧ Items m) ∧
    (∀ t r, fields f t = some r → ∃ m, t = m ++ '}' :: r ∧ Fields m) := by
  induction f with
  | zero => exact ⟨fun t r h => by simp [val] at h, fun t r h => by simp [items] at h, fun t r h => by simp [fields] at h⟩
  | succ f ih =>
    obtain ⟨iv, ii, iF⟩ := ih
    refine ⟨fun t r h => ?_, fun t r h => ?_, fun t r h => ?_⟩
    · rw [val] at h
      cases hk : skip t with
      | nil => rw [hk] at h; simp at h
      | cons c r0 =>
        rw [hk] at h
        dsimp only at h
        obtain ⟨a, ha, rfl⟩ := skip_eq hk
        split at h
        · rename_i hc; subst hc
          obtain ⟨i, rfl, hi⟩ := strIgn_sound h
          exact ⟨a, _, by simp, ha, .string hi⟩
        split at h
        · rename_i hc; subst hc
          cases hk2 : skip r0 with
          | nil => rw [hk2] at h; simp at h
          | cons d r1 =>
            rw [hk2] at h
            dsimp only at h
            split at h
            · rename_i hd; subst hd
              obtain ⟨w, hw, rfl⟩ := skip_eq hk2
              simp only [Option.some.injEq] at h
              subst h
              exact ⟨a, _, by simp, ha, .array0 hw⟩
            · obtain ⟨m, rfl, hm⟩ := ii _ _ h
              exact ⟨a, _, by simp, ha, .array hm⟩
        split at h
        · rename_i hc; subst hc
          cases hk2 : skip r0 with
          | nil => rw [hk2] at h; simp at h
          | cons d r1 =>
            rw [hk2] at h
            dsimp only at h
            split at h
            · rename_i hd; subst hd
              obtain ⟨w, hw, rfl⟩ := skip_eq hk2
              simp only [Option.some.injEq] at h
              subst h
              exact ⟨a, _, by simp, ha, .object0 hw⟩
            · obtain ⟨m, rfl, hm⟩ := iF _ _ h
              exact ⟨a, _, by simp, ha, .object hm⟩
        split at h
        · rename_i hc; subst hc
          exact ⟨a, _, by rw [word_sound h]; rfl, ha, .null⟩
        split at h
        · rename_i hc; subst hc
          exact ⟨a, _, by rw [word_sound h]; rfl, ha, .true⟩
        split at h
        · rename_i hc; subst hc
          exact ⟨a, _, by rw [word_sound h]; rfl, ha, .false⟩
        split at h
        · rename_i hc; subst hc
          obtain ⟨i, fr, e, rfl, hi, hf, he⟩ := num_sound h
          exact ⟨a, ['-'] ++ i ++ fr ++ e, by simp, ha, .number ⟨['-'], i, fr, e, rfl, .inr rfl, hi, hf, he⟩⟩
        split at h
        · obtain ⟨i, fr, e, e0, hi, hf, he⟩ := num_sound h
          exact ⟨a, [] ++ i ++ fr ++ e, by rw [e0]; simp, ha, .number ⟨[], i, fr, e, rfl, .inl rfl, hi, hf, he⟩⟩
        · simp at h
    · rw [items, Option.bind_eq_some_iff] at h
      obtain ⟨r0, h0, h⟩ := h
      obtain ⟨a, v, rfl, ha, hv⟩ := iv _ _ h0
      cases hk : skip r0 with
      | nil => rw [hk] at h; simp at h
      | cons c r1 =>
        rw [hk] at h
        dsimp only at h
        obtain ⟨b, hb, rfl⟩ := skip_eq hk
        split at h
        · rename_i hc; subst hc
          obtain ⟨m, rfl, hm⟩ := ii _ _ h
          exact ⟨_, by simp, .more ha hv hb hm⟩
        split at h
        · rename_i hc; subst hc
          simp only [Option.some.injEq] at h
          subst h
          exact ⟨_, by simp, .one ha hv hb⟩
        · simp at h
    · rw [fields, Option.bind_eq_some_iff] at h
      obtain ⟨r0, h0, h⟩ := h
      rw [Option.bind_eq_some_iff] at h
      obtain ⟨r1, h1, h⟩ := h
      obtain ⟨a, i, b, rfl, ha, hi, hb⟩ := keyIgn_sound h0
      obtain ⟨c, v, rfl, hc, hv⟩ := iv _ _ h1
      cases hk : skip r1 with
      | nil => rw [hk] at h; simp at h
      | cons x r2 =>
        rw [hk] at h
        dsimp only at h
        obtain ⟨d, hd, rfl⟩ := skip_eq hk
        split at h
        · rename_i hx; subst hx
          obtain ⟨m, rfl, hm⟩ := iF _ _ h
          exact ⟨_, by simp, .more ha hi hb hc hv hd hm⟩
        split at h
        · rename_i hx; subst hx
          simp only [Option.some.injEq] at h
          subst h
          exact ⟨_, by simp, .one ha hi hb hc hv hd⟩
        · simp at h

theorem stop_ws {d : Text} {c : Char} {r : Text} (hd : Ws d) (hc : c = ',' ∨ c = ']' ∨ c = '}') : Stop (d ++ c :: r) := by
  intro x hx
  cases d with
  | nil =>
    simp only [List.nil_append, List.head?_cons, Option.some.injEq] at hx
    subst hx
    rcases hc with rfl | rfl | rfl <;> decide
  | cons y d =>
    simp only [List.cons_append, List.head?_cons, Option.some.injEq] at hx
    subst hx
    rcases hd y (by simp) with rfl | rfl | rfl | rfl <;> decide

theorem number_head {t : Text} (h : Number t) : ∃ c t', t = c :: t' ∧ (c = '-' ∨ isDig c = true) := by
  obtain ⟨sign, i, fr, e, rfl, hs, ⟨⟨hn, ha⟩, -⟩, -, -⟩ := h
  rcases hs with rfl | rfl
  · cases i with
    | nil => exact absurd rfl hn
    | cons c i => exact ⟨c, _, rfl, .inr (isDig_iff.mpr (ha c (by simp)))⟩
  · exact ⟨'-', _, rfl, .inl rfl⟩

theorem dig_facts {c : Char} (h : isDig c = true) : isWs c = false ∧ c ≠ ']' ∧ c ≠ '"' ∧ c ≠ '[' ∧ c ≠ '{' ∧ c ≠ 'n' ∧ c ≠ 't' ∧ c ≠ 'f' ∧ c ≠ '-' := by
  have : ∀ c ∈ ['0', '1', '2', '3', '4', '5', '6', '7', '8', '9'],
    isWs c = false ∧ c ≠ ']' ∧ c ≠ '"' ∧ c ≠ '[' ∧ c ≠ '{' ∧ c ≠ 'n' ∧ c ≠ 't' ∧ c ≠ 'f' ∧ c ≠ '-' := by decide
  exact this c (isDig_iff.mp h)

theorem value_head {v : Text} (h : Value v) : ∃ c v', v = c :: v' ∧ isWs c = false ∧ c ≠ ']' := by
  cases h with
  | number h =>
    obtain ⟨c, t', rfl, hc | hc⟩ := number_head h
    · subst hc; exact ⟨_, _, rfl, by decide, by decide⟩
    · exact ⟨_, _, rfl, (dig_facts hc).1, (dig_facts hc).2.1⟩
  | _ => exact ⟨_, _, rfl, by decide, by decide⟩

theorem items_head {m : Text} (h : Items m) (x : Text) : ∃ c r, skip (m ++ x) = c :: r ∧ c ≠ ']' := by
  cases h with
  | one ha hv hb =>
    obtain ⟨c, v', rfl, h1, h2⟩ := value_head hv
    exact ⟨c, _, by simp only [List.append_assoc, List.cons_append]; exact skip_to ha h1, h2⟩
  | more ha hv hb ht =>
    obtain ⟨c, v', rfl, h1, h2⟩ := value_head hv
    exact ⟨c, _, by simp only [List.append_assoc, List.cons_append]; exact skip_to ha h1, h2⟩

theorem fields_head {m : Text} (h : Fields m) (x : Text) : ∃ r, skip (m ++ x) = '"' :: r := by
  cases h with
  | one ha => exact ⟨_, by simp only [List.append_assoc, List.cons_append]; exact skip_to ha (by decide)⟩
  | more ha => exact ⟨_, by simp only [List.append_assoc, List.cons_append]; exact skip_to ha (by decide)⟩

theorem val_number {t a r : Text} {f : Nat} (h : Number t) (ha : Ws a) (hr : Stop r) : val (f + 1) (a ++ (t ++ r)) = some r := by
  obtain ⟨sign, i, fr, e, rfl, hs, hi, hf, he⟩ := h
  have hn := num_complete hi hf he hr
  rcases hs with rfl | rfl
  · obtain ⟨⟨hne, hall⟩, -⟩ := hi
    cases i with
    | nil => exact absurd rfl hne
    | cons c i =>
      have hd := isDig_iff.mpr (hall c (by simp))
      obtain ⟨h1, -, h2, h3, h4, h5, h6, h7, h8⟩ := dig_facts hd
      have e0 : a ++ ([] ++ (c :: i) ++ fr ++ e ++ r) = a ++ c :: (i ++ (fr ++ (e ++ r))) := by simp
      rw [e0, val, skip_to ha h1]
      dsimp only
      rw [if_neg h2, if_neg h3, if_neg h4, if_neg h5, if_neg h6, if_neg h7, if_neg h8, if_pos hd]
      exact hn
  · have e0 : a ++ (['-'] ++ i ++ fr ++ e ++ r) = a ++ '-' :: (i ++ (fr ++ (e ++ r))) := by simp
    rw [e0, val, skip_to ha (by decide)]
    dsimp only
    rw [if_neg (by decide), if_neg (by decide), if_neg (by decide), if_neg (by decide), if_neg (by decide), if_neg (by decide), if_pos rfl]
    exact hn

theorem val_all_complete (f : Nat) :
    (∀ v, Value v → v.length < f → ∀ a r, Ws a → Stop r → val f (a ++ (v ++ r)) = some r) ∧
    (∀ m, Items m → m.length + 1 < f → ∀ r, items f (m ++ ']' :: r) = some r) ∧
    (∀ m, Fields m → m.length + 1 < f → ∀ r, fields f (m ++ '}' :: r) = some r) := by
  induction f with
  | zero => exact ⟨fun _ _ h => absurd h (by omega), fun _ _ h => absurd h (by omega), fun _ _ h => absurd h (by omega)⟩
  | succ f ih =>
    obtain ⟨iv, ii, iF⟩ := ih
    refine ⟨fun v hv hl a r ha hr => ?_, fun m hm hl r => ?_, fun m hm hl r => ?_⟩
    · cases hv with
      | null =>
        rw [List.cons_append, val, skip_to ha (by decide)]
        exact word_complete ['u', 'l', 'l'] r
      | true =>
        rw [List.cons_append, val, skip_to ha (by decide)]
        exact word_complete ['r', 'u', 'e'] r
      | false =>
        rw [List.cons_append, val, skip_to ha (by decide)]
        exact word_complete ['a', 'l', 's', 'e'] r
      | number h => exact val_number h ha hr
      | @string i h =>
        have e0 : a ++ ('"' :: (i ++ ['"']) ++ r) = a ++ '"' :: (i ++ '"' :: r) := by simp
        rw [e0, val, skip_to ha (by decide)]
        dsimp only
        rw [if_pos rfl]
        exact strIgn_complete h _ _ (by simp only [List.length_append, List.length_cons]; omega)
      | @array0 w h =>
        have e0 : a ++ ('[' :: (w ++ [']']) ++ r) = a ++ '[' :: (w ++ ']' :: r) := by simp
        rw [e0, val, skip_to ha (by decide)]
        dsimp only
        rw [if_neg (by decide), if_pos rfl, skip_to h (by decide)]
        dsimp only
        rw [if_pos rfl]
      | @array m h =>
        have e0 : a ++ ('[' :: (m ++ [']']) ++ r) = a ++ '[' :: (m ++ ']' :: r) := by simp
        obtain ⟨c, r', hk, hc⟩ := items_head h (']' :: r)
        rw [e0, val, skip_to ha (by decide)]
        dsimp only
        rw [if_neg (by decide), if_pos rfl, hk]
        dsimp only
        simp only [List.length_cons, List.length_append, List.length_nil] at hl
        rw [if_neg hc, ii m h (by omega)]
      | @object0 w h =>
        have e0 : a ++ ('{' :: (w ++ ['}']) ++ r) = a ++ '{' :: (w ++ '}' :: r) := by simp
        rw [e0, val, skip_to ha (by decide)]
        dsimp only
        rw [if_neg (by decide), if_neg (by decide), if_pos rfl, skip_to h (by decide)]
        dsimp only
        rw [if_pos rfl]
      | @object m h =>
        have e0 : a ++ ('{' :: (m ++ ['}']) ++ r) = a ++ '{' :: (m ++ '}' :: r) := by simp
        obtain ⟨r', hk⟩ := fields_head h ('}' :: r)
        rw [e0, val, skip_to ha (by decide)]
        dsimp only
        rw [if_neg (by decide), if_neg (by decide), if_pos rfl, hk]
        dsimp only
        simp only [List.length_cons, List.length_append, List.length_nil] at hl
        rw [if_neg (by decide), iF m h (by omega)]
    · rw [items]
      cases hm with
      | @one a v b ha hv hb =>
        have e0 : a ++ (v ++ b) ++ ']' :: r = a ++ (v ++ (b ++ ']' :: r)) := by simp
        simp only [List.length_append] at hl
        rw [e0, iv v hv (by omega) a _ ha (stop_ws hb (by simp)), Option.bind_some, skip_to hb (by decide)]
        rfl
      | @more a v b t ha hv hb ht =>
        have e0 : a ++ (v ++ (b ++ ',' :: t)) ++ ']' :: r = a ++ (v ++ (b ++ ',' :: (t ++ ']' :: r))) := by simp
        simp only [List.length_append, List.length_cons] at hl
        obtain ⟨c, v', rfl, -⟩ := value_head hv
        simp only [List.length_cons] at hl
        rw [e0, iv _ hv (by simp only [List.length_cons]; omega) a _ ha (stop_ws hb (by simp)), Option.bind_some, skip_to hb (by decide)]
        dsimp only
        rw [if_pos rfl, ii t ht (by omega)]
    · rw [fields]
      cases hm with
      | @one a i b c v d ha hi hb hc hv hd =>
        have e0 : a ++ '"' :: (i ++ '"' :: (b ++ ':' :: (c ++ (v ++ d)))) ++ '}' :: r =
          a ++ '"' :: (i ++ '"' :: (b ++ ':' :: (c ++ (v ++ (d ++ '}' :: r))))) := by simp
        simp only [List.length_append, List.length_cons] at hl
        rw [e0, keyIgn_complete ha hi hb, Option.bind_some, iv v hv (by omega) c _ hc (stop_ws hd (by simp)), Option.bind_some,
          skip_to hd (by decide)]
        rfl
      | @more a i b c v d t ha hi hb hc hv hd ht =>
        have e0 : a ++ '"' :: (i ++ '"' :: (b ++ ':' :: (c ++ (v ++ (d ++ ',' :: t))))) ++ '}' :: r =
          a ++ '"' :: (i ++ '"' :: (b ++ ':' :: (c ++ (v ++ (d ++ ',' :: (t ++ '}' :: r)))))) := by simp
        simp only [List.length_append, List.length_cons] at hl
        rw [e0, keyIgn_complete ha hi hb, Option.bind_some, iv v hv (by omega) c _ hc (stop_ws hd (by simp)), Option.bind_some,
          skip_to hd (by decide)]
        dsimp only
        rw [if_pos rfl, iF t ht (by omega)]

theorem val_sound {f : Nat} {t r : Text} (h : val f t = some r) : ∃ a v, t = a ++ (v ++ r) ∧ Ws a ∧ Value v := (val_all_sound f).1 t r h

theorem val_complete {a v r : Text} {f : Nat} (ha : Ws a) (hv : Value v) (hr : Stop r) (hf : v.length < f) : val f (a ++ (v ++ r)) = some r :=
  (val_all_complete f).1 v hv hf a r ha hr

end Verif.Request
