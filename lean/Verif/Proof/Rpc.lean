import Verif.Spec.Rpc

/-! Reading back what the JSON writer writes. -/

set_option maxRecDepth 8000

namespace Verif.Rpc
open Verif

theorem hex_vals : ∀ n : Fin 16, hexVal (hex n.1) = some n.1 := by decide

theorem hexVal_hex {n : Nat} (h : n < 16) : hexVal (hex n) = some n := hex_vals ⟨n, h⟩

theorem readStr_esc (c : Char) (r : Text) : readStr (esc c ++ r) = (readStr r).map fun (s, t) => (c :: s, t) := by
  unfold esc
  have hu : ∀ e : Char, e ≠ 'u' → ∀ x, unesc e = some x → readStr ('\\' :: e :: r) = (readStr r).map fun (s, t) => (x :: s, t) := by
    intro e he x hx
    rw [readStr.eq_def]
    simp only [show ('\\' : Char) ≠ '"' from by decide, if_false, if_true, if_neg he, hx]
  have hn : ∀ n, c.toNat = n → c = Char.ofNat n := by rintro _ rfl; exact (Char.ofNat_toNat c).symm
  split
  · rename_i h; rw [h]; exact hu '"' (by decide) _ rfl
  split
  · rename_i h; rw [h]; exact hu '\\' (by decide) _ rfl
  split
  · rename_i h; rw [hn _ h]; exact hu 'b' (by decide) _ rfl
  split
  · rename_i h; rw [hn _ h]; exact hu 't' (by decide) _ rfl
  split
  · rename_i h; rw [hn _ h]; exact hu 'n' (by decide) _ rfl
  split
  · rename_i h; rw [hn _ h]; exact hu 'f' (by decide) _ rfl
  split
  · rename_i h; rw [hn _ h]; exact hu 'r' (by decide) _ rfl
  split
  · rename_i h
    show readStr ('\\' :: 'u' :: '0' :: '0' :: hex (c.toNat / 16) :: hex (c.toNat % 16) :: r) = _
    rw [readStr.eq_def]
    simp only [show ('\\' : Char) ≠ '"' from by decide, if_false, if_true, hexVal_hex (show c.toNat / 16 < 16 by omega), hexVal_hex (show c.toNat % 16 < 16 by omega),
      show hexVal '0' = some 0 from by decide]
    have : 4096 * 0 + 256 * 0 + 16 * (c.toNat / 16) + c.toNat % 16 = c.toNat := by omega
    rw [this, Char.ofNat_toNat]
  · rename_i h1 h2 _ _ _ _ _ h3
    show readStr (c :: r) = _
    rw [readStr.eq_def]
    simp only [if_neg h1, if_neg h2, if_neg h3]

theorem readStr_ser (s r : Text) : readStr (s.flatMap esc ++ '"' :: r) = some (s, r) := by
  induction s with
  | nil => rw [List.flatMap_nil, List.nil_append, readStr.eq_def]; simp
  | cons c s ih => rw [List.flatMap_cons, List.append_assoc, readStr_esc, ih]; rfl

/-! ### No newline in the output -/

theorem hex_clean {n : Nat} (h : n < 16) : hex n ≠ '\n' := by
  have : ∀ n : Fin 16, hex n.1 ≠ '\n' := by decide
  exact this ⟨n, h⟩

theorem esc_clean (c : Char) : '\n' ∉ esc c := by
  unfold esc
  repeat' split
  all_goals try (simp; done)
  · rename_i h
    have h1 := hex_clean (show c.toNat / 16 < 16 by omega)
    have h2 := hex_clean (show c.toNat % 16 < 16 by omega)
    simp [Ne.symm h1, Ne.symm h2]
  · rename_i h _ _ _
    simp only [List.mem_singleton]
    rintro rfl
    exact h rfl

theorem serStr_clean (s : Text) : '\n' ∉ serStr s := by
  unfold serStr
  simp [List.mem_flatMap, esc_clean]

theorem digits_clean (n : Nat) : '\n' ∉ Nat.toDigits 10 n := by
  intro h
  have := Nat.isDigit_of_mem_toDigits (by omega) (by omega) h
  simp at this

mutual
theorem ser_clean : ∀ v : Json, '\n' ∉ ser v
  | .null => by simp [ser]
  | .bool true => by simp [ser]
  | .bool false => by simp [ser]
  | .num n => by rw [ser]; exact digits_clean n
  | .str s => by rw [ser]; exact serStr_clean s
  | .arr [] => by simp [ser]
  | .arr (v :: vs) => by
    rw [ser]
    simp [ser_clean v, serItems_clean vs]
  | .obj [] => by simp [ser]
  | .obj ((k, v) :: fs) => by
    rw [ser]
    simp [ser_clean v, serFields_clean fs, serStr_clean k]
theorem serItems_clean : ∀ vs : List Json, '\n' ∉ serItems vs
  | [] => by simp [serItems]
  | v :: vs => by
    rw [serItems]
    simp [ser_clean v, serItems_clean vs]
theorem serFields_clean : ∀ fs : List (Text × Json), '\n' ∉ serFields fs
  | [] => by simp [serFields]
  | (k, v) :: fs => by
    rw [serFields]
    simp [ser_clean v, serFields_clean fs, serStr_clean k]
end

/-! ### Reading back -/

/-- The text is empty or does not begin with a digit. -/
def NoDigit (t : Text) : Prop := ∀ c, t.head? = some c → c.isDigit = false

theorem digits_head (n : Nat) : ∃ c r, Nat.toDigits 10 n = c :: r ∧ c.isDigit = true := by
  cases h : Nat.toDigits 10 n with
  | nil =>
    have := Nat.length_toDigits_pos (b := 10) (n := n)
    rw [h] at this; simp at this
  | cons c r => exact ⟨c, r, rfl, Nat.isDigit_of_mem_toDigits (b := 10) (n := n) (by omega) (by omega) (by rw [h]; simp)⟩

theorem ser_head (v : Json) : ∃ c r, ser v = c :: r ∧ c ≠ ']' ∧ c ≠ '}' := by
  cases v with
  | null => exact ⟨_, _, by rw [ser], by decide, by decide⟩
  | bool b => cases b <;> exact ⟨_, _, by rw [ser], by decide, by decide⟩
  | num n =>
    obtain ⟨c, r, h, hd⟩ := digits_head n
    refine ⟨c, r, by rw [ser, h], ?_, ?_⟩ <;> (rintro rfl; simp at hd)
  | str s => exact ⟨'"', s.flatMap esc ++ ['"'], by rw [ser]; rfl, by decide, by decide⟩
  | arr vs => cases vs <;> exact ⟨_, _, by rw [ser], by decide, by decide⟩
  | obj fs =>
    rcases fs with _ | ⟨⟨k, v⟩, fs⟩ <;> exact ⟨_, _, by rw [ser], by decide, by decide⟩

theorem takeWhile_digits {a r : Text} (h : ∀ c ∈ a, c.isDigit = true) (hr : NoDigit r) :
    (a ++ r).takeWhile Char.isDigit = a ∧ (a ++ r).dropWhile Char.isDigit = r := by
  induction a with
  | nil =>
    cases r with
    | nil => exact ⟨rfl, rfl⟩
    | cons c r => simp [hr c rfl]
  | cons c a ih =>
    obtain ⟨h1, h2⟩ := ih fun c hc => h c (by simp [hc])
    simp [h c (by simp), h1, h2]

theorem noDigit_cons {c : Char} {r : Text} (h : c.isDigit = false) : NoDigit (c :: r) := by
  intro c' hc'; simp at hc'; subst hc'; exact h

theorem serItems_noDigit (vs : List Json) (r : Text) : NoDigit (serItems vs ++ r) := by
  cases vs <;> (rw [serItems]; exact noDigit_cons (by decide))

theorem serFields_noDigit (fs : List (Text × Json)) (r : Text) : NoDigit (serFields fs ++ r) := by
  rcases fs with _ | ⟨⟨k, v⟩, fs⟩ <;> (rw [serFields]; exact noDigit_cons (by decide))

mutual
theorem read_ser : ∀ (v : Json) (f : Nat) (r : Text), (ser v).length < f → NoDigit r → readVal f (ser v ++ r) = some (v, r)
  | .null, f + 1, r, _, _ => by simp [ser, readVal]
  | .bool true, f + 1, r, _, _ => by simp [ser, readVal]
  | .bool false, f + 1, r, _, _ => by simp [ser, readVal]
  | .num n, f + 1, r, _, hr => by
    obtain ⟨c, t, h, hd⟩ := digits_head n
    have ht := takeWhile_digits (a := Nat.toDigits 10 n) (fun c hc => Nat.isDigit_of_mem_toDigits (by omega) (by omega) hc) hr
    rw [h, List.cons_append] at ht
    rw [ser, h, List.cons_append, readVal]
    have hne : ∀ x : Char, x.isDigit = false → c ≠ x := by rintro x hx rfl; rw [hx] at hd; simp at hd
    simp only [if_neg (hne 'n' (by decide)), if_neg (hne 't' (by decide)), if_neg (hne 'f' (by decide)), if_neg (hne '"' (by decide)),
      if_neg (hne '[' (by decide)), if_neg (hne '{' (by decide)), hd, if_true, ht.1, ht.2]
    rw [← h, Nat.ofDigitChars_ten_toDigits]
  | .str s, f + 1, r, _, _ => by
    rw [ser, serStr, List.cons_append, List.append_assoc, readVal]
    simp [readStr_ser]
  | .arr [], f + 1, r, _, _ => by simp [ser, readVal]
  | .arr (v :: vs), f + 1, r, hf, hr => by
    rw [ser, List.length_cons, List.length_append] at hf
    obtain ⟨c, t, h, h1, -⟩ := ser_head v
    have hl : 0 < (serItems vs).length := by cases vs <;> (rw [serItems]; simp)
    have e1 := read_ser v f (serItems vs ++ r) (by omega) (serItems_noDigit vs r)
    have e2 := read_items vs f r (by omega)
    have hh : (ser v ++ (serItems vs ++ r)).head? ≠ some ']' := by rw [h]; simpa using h1
    rw [ser, List.cons_append, List.append_assoc, readVal]
    simp only [show ('[' : Char) ≠ 'n' from by decide, show ('[' : Char) ≠ 't' from by decide, show ('[' : Char) ≠ 'f' from by decide,
      show ('[' : Char) ≠ '"' from by decide, if_false, if_true, if_neg hh, e1, e2, Option.map_some]
  | .obj [], f + 1, r, _, _ => by simp [ser, readVal]
  | .obj ((k, v) :: fs), f + 1, r, hf, hr => by
    rw [ser, List.length_cons, List.length_append, List.length_cons, List.length_append] at hf
    have hl : 0 < (serFields fs).length := by rcases fs with _ | ⟨⟨k, v⟩, fs⟩ <;> (rw [serFields]; simp)
    have hk : 2 ≤ (serStr k).length := by simp [serStr]
    have e1 : readField f (serStr k ++ ':' :: (ser v ++ (serFields fs ++ r))) = some ((k, v), serFields fs ++ r) := by
      obtain ⟨g, rfl⟩ : ∃ g, f = g + 1 := ⟨f - 1, by omega⟩
      rw [serStr, List.cons_append, List.append_assoc, readField]
      simp only [if_true, List.singleton_append, readStr_ser, List.head?_cons, List.drop_succ_cons, List.drop_zero]
      rw [read_ser v g _ (by omega) (serFields_noDigit fs r)]; rfl
    have e2 := read_fields fs f r (by omega)
    have hh : (serStr k ++ ':' :: (ser v ++ (serFields fs ++ r))).head? ≠ some '}' := by rw [serStr]; simp
    rw [ser, List.cons_append, List.append_assoc, List.cons_append, List.append_assoc, readVal]
    simp only [show ('{' : Char) ≠ 'n' from by decide, show ('{' : Char) ≠ 't' from by decide, show ('{' : Char) ≠ 'f' from by decide,
      show ('{' : Char) ≠ '"' from by decide, show ('{' : Char) ≠ '[' from by decide, if_false, if_true, if_neg hh, e1, e2, Option.map_some]
theorem read_items : ∀ (vs : List Json) (f : Nat) (r : Text), (serItems vs).length < f + 1 → readItems f (serItems vs ++ r) = some (vs, r)
  | [], 0, r, h => by simp [serItems] at h
  | [], f + 1, r, _ => by simp [serItems, readItems]
  | v :: vs, 0, r, h => by simp [serItems] at h
  | v :: vs, f + 1, r, h => by
    rw [serItems, List.length_cons, List.length_append] at h
    have hl : 0 < (serItems vs).length := by cases vs <;> (rw [serItems]; simp)
    have e1 := read_ser v f (serItems vs ++ r) (by omega) (serItems_noDigit vs r)
    have hv : 0 < (ser v).length := by obtain ⟨c, t, h, -⟩ := ser_head v; rw [h]; simp
    have e2 := read_items vs f r (by omega)
    rw [serItems, List.cons_append, List.append_assoc, readItems]
    simp only [show (',' : Char) ≠ ']' from by decide, if_false, if_true, e1, e2, Option.map_some]
theorem read_fields : ∀ (fs : List (Text × Json)) (f : Nat) (r : Text), (serFields fs).length < f + 1 →
    readFields f (serFields fs ++ r) = some (fs, r)
  | [], 0, r, h => by simp [serFields] at h
  | [], f + 1, r, _ => by simp [serFields, readFields]
  | (k, v) :: fs, 0, r, h => by simp [serFields] at h
  | (k, v) :: fs, f + 1, r, h => by
    rw [serFields, List.length_cons, List.length_append, List.length_cons, List.length_append] at h
    have hl : 0 < (serFields fs).length := by rcases fs with _ | ⟨⟨k, v⟩, fs⟩ <;> (rw [serFields]; simp)
    have hk : 2 ≤ (serStr k).length := by simp [serStr]
    have e1 : readField f (serStr k ++ ':' :: (ser v ++ (serFields fs ++ r))) = some ((k, v), serFields fs ++ r) := by
      obtain ⟨g, rfl⟩ : ∃ g, f = g + 1 := ⟨f - 1, by omega⟩
      rw [serStr, List.cons_append, List.append_assoc, readField]
      simp only [if_true, List.singleton_append, readStr_ser, List.head?_cons, List.drop_succ_cons, List.drop_zero]
      rw [read_ser v g _ (by omega) (serFields_noDigit fs r)]; rfl
    have e2 := read_fields fs f r (by omega)
    rw [serFields, List.cons_append, List.append_assoc, List.cons_append, List.append_assoc, readFields]
    simp only [show (',' : Char) ≠ '}' from by decide, if_false, if_true, e1, e2, Option.map_some]
end

theorem readJson_ser (v : Json) : readJson (ser v) = some v := by
  unfold readJson
  have := read_ser v ((ser v).length + 1) [] (by omega) (by intro c h; simp at h)
  rw [List.append_nil] at this
  rw [this]

end Verif.Rpc
