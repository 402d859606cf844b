import Verif.Model.Formats
import Verif.Proof.Base64

/-! # The bytes of an archive's description and index: proofs -/

set_option maxRecDepth 8000

namespace Verif.Formats
open Verif Verif.Archive

/-- The reader takes exactly `t` from what begins with `t`, and nothing less. -/
def Reads {α : Type} (p : P α) (t : Bytes) (a : α) : Prop := (∀ r, p (t ++ r) = some (a, r)) ∧ ∀ k, k < t.length → p (t.take k) = none

theorem reads_ret {α : Type} (a : α) : Reads (P.ret a) [] a := ⟨fun _ => rfl, fun k h => absurd h (Nat.not_lt_zero k)⟩

theorem then_some {α β : Type} {p : P α} {f : α → P β} {b r : Bytes} {a : α} (h : p b = some (a, r)) : p.then f b = f a r := by
  simp only [P.then, h]

theorem take_append_ge {t u : Bytes} {k : Nat} (h : t.length ≤ k) : (t ++ u).take k = t ++ u.take (k - t.length) := by
  rw [List.take_append, List.take_of_length_le h]

theorem reads_then {α β : Type} {p : P α} {f : α → P β} {t u : Bytes} {a : α} {b : β} (h : Reads p t a) (h' : Reads (f a) u b) :
    Reads (p.then f) (t ++ u) b := by
  constructor
  · intro r
    simp only [P.then, List.append_assoc, h.1, h'.1]
  · intro k hk
    by_cases hlt : k < t.length
    · rw [List.take_append_of_le_length (by omega)]
      simp only [P.then, h.2 k hlt]
    · rw [take_append_ge (by omega)]
      simp only [P.then, h.1]
      exact h'.2 _ (by rw [List.length_append] at hk; omega)

theorem reads_then_ret {α β : Type} {p : P α} {f : α → P β} {t : Bytes} {a : α} {b : β} (h : Reads p t a) (h' : f a = P.ret b) :
    Reads (p.then f) t b := by
  have := reads_then (f := f) h (by rw [h']; exact reads_ret b)
  rwa [List.append_nil] at this

theorem reads_takeN (t : Bytes) : Reads (takeN t.length) t t := by
  constructor
  · intro r
    simp [takeN]
  · intro k hk
    simp only [takeN]
    rw [if_neg (by simp; omega)]

theorem reads_lit (t : Bytes) : Reads (lit t) t () := reads_then_ret (reads_takeN t) (by simp)

/-! ## CBOR -/

theorem be_length (n x : Nat) : (be n x).length = n := by simp [be]

theorem reads_be (n x : Nat) (h : x < 256 ^ n) : Reads (readBe n) (be n x) x := by
  have := reads_takeN (be n x)
  rw [be_length] at this
  exact reads_then_ret this (by simp [be, fromLe_le_of_lt h])

theorem reads_unary (m n : Nat) (h : 2 ^ 64 ≤ m + n) : Reads (unary m) (List.replicate n 1 ++ [0]) (m + n) := by
  induction n generalizing m with
  | zero =>
    constructor
    · intro r
      show unary m (0 :: r) = _
      simp only [unary, if_true]
      rw [if_pos (by omega)]
      rfl
    · intro k hk
      have : k = 0 := by simp at hk; omega
      subst this
      rfl
  | succ n ih =>
    obtain ⟨h1, h2⟩ := ih (m + 1) (by omega)
    constructor
    · intro r
      show unary m (1 :: (List.replicate n 1 ++ [0] ++ r)) = _
      simp only [unary]
      rw [if_neg (by decide), if_pos trivial, h1]
      congr 2
      omega
    · intro k hk
      cases k with
      | zero => rfl
      | succ k =>
        show unary m (1 :: (List.replicate n (1 : UInt8) ++ [0]).take k) = _
        simp only [unary]
        rw [if_neg (by decide), if_pos trivial]
        exact h2 k (by simp at hk ⊢; omega)

theorem reads_one (x : UInt8) : Reads (takeN 1) [x] [x] := reads_takeN [x]

theorem toNat_lt {n : Nat} (h : n < 256) : (UInt8.ofNat n).toNat = n := by
  rw [UInt8.toNat_ofNat']; omega

theorem reads_head (kind n : Nat) (hk : kind < 8) : Reads (readHead kind) (head kind n) n := by
  unfold head readHead
  have go : ∀ (i : Nat) (t : Bytes) (q : P Nat), i < 32 → Reads q t n →
      (∀ x : Bytes, (x.headD 0).toNat = kind * 32 + i → (let b := (x.headD 0).toNat
        if b / 32 ≠ kind then P.fail
        else
          let i := b % 32
          if i < 24 then P.ret i
          else if i = 24 then readBe 1
          else if i = 25 then readBe 2
          else if i = 26 then readBe 4
          else if i = 27 then readBe 8
          else if i = 28 then unary 0
          else P.fail) = q) → Reads ((takeN 1).then fun x => let b := (x.headD 0).toNat
        if b / 32 ≠ kind then P.fail
        else
          let i := b % 32
          if i < 24 then P.ret i
          else if i = 24 then readBe 1
          else if i = 25 then readBe 2
          else if i = 26 then readBe 4
          else if i = 27 then readBe 8
          else if i = 28 then unary 0
          else P.fail) (UInt8.ofNat (kind * 32 + i) :: t) n := by
    intro i t q hi hq he
    refine reads_then (t := [UInt8.ofNat (kind * 32 + i)]) (reads_one _) ?_
    rw [he _ (by show (UInt8.ofNat _).toNat = _; exact toNat_lt (by omega))]
    exact hq
  have e1 : ∀ i, i < 32 → (kind * 32 + i) / 32 = kind ∧ (kind * 32 + i) % 32 = i := fun i hi => by omega
  (repeat' split)
  · refine go n [] (P.ret n) (by omega) (reads_ret n) ?_
    intro x hx
    simp only [hx, e1 n (by omega)]
    simp [*]
  · exact go 24 _ (readBe 1) (by omega) (reads_be 1 n (by omega)) (fun x hx => by simp only [hx, e1 24 (by omega)]; simp)
  · exact go 25 _ (readBe 2) (by omega) (reads_be 2 n (by omega)) (fun x hx => by simp only [hx, e1 25 (by omega)]; simp)
  · exact go 26 _ (readBe 4) (by omega) (reads_be 4 n (by omega)) (fun x hx => by simp only [hx, e1 26 (by omega)]; simp)
  · exact go 27 _ (readBe 8) (by omega) (reads_be 8 n (by omega)) (fun x hx => by simp only [hx, e1 27 (by omega)]; simp)
  · refine go 28 _ (unary 0) (by omega) ?_ (fun x hx => by simp only [hx, e1 28 (by omega)]; simp)
    have := reads_unary 0 n (by omega)
    rwa [Nat.zero_add] at this

theorem reads_times {α : Type} {p : P α} {e : α → Bytes} (l : List α) (h : ∀ a ∈ l, Reads p (e a) a) : Reads (times p l.length) (l.flatMap e) l := by
  induction l with
  | nil => exact reads_ret []
  | cons a l ih =>
    rw [List.flatMap_cons]
    exact reads_then (h a (by simp)) (reads_then_ret (ih fun b hb => h b (by simp [hb])) rfl)

theorem reads_text (t : Bytes) : Reads (readText t) (text t) () := by
  refine reads_then (reads_head 3 _ (by omega)) ?_
  rw [if_pos rfl]
  exact reads_lit t

theorem reads_bytes (b : Bytes) : Reads readBytes (bytes b) b := reads_then (reads_head 2 _ (by omega)) (reads_takeN b)

theorem reads_u8 (x : UInt8) : Reads readU8 (head 0 x.toNat) x :=
  reads_then_ret (reads_head 0 _ (by omega)) (by rw [if_pos x.toNat_lt, UInt8.ofNat_toNat])

theorem reads_byteList (b : Bytes) : Reads readByteList (byteList b) b :=
  reads_then (reads_head 4 _ (by omega)) (reads_times b fun x _ => reads_u8 x)

theorem readHead_other {kind : Nat} {x : UInt8} (r : Bytes) (h : x.toNat / 32 ≠ kind) : readHead kind (x :: r) = none := by
  simp [readHead, P.then, takeN, h, P.fail]

theorem reads_spec (v : Spec) : Reads readSpec (encSpec v) v := by
  cases v with
  | zero =>
    have h := reads_then_ret (f := fun _ => P.ret Spec.zero) (reads_text tZero) rfl
    constructor
    · intro r
      have e : readHead 5 (text tZero ++ r) = none := readHead_other (x := 100) (tZero ++ r) (by decide)
      show readSpec (text tZero ++ r) = _
      unfold readSpec
      rw [e]
      exact h.1 r
    · intro k hk
      have e : readHead 5 ((text tZero).take k) = none := by
        cases k with
        | zero => rfl
        | succ k => exact readHead_other (x := 100) (tZero.take k) (by decide)
      show readSpec ((text tZero).take k) = _
      unfold readSpec
      rw [e]
      exact h.2 k hk
  | obj b =>
    have h : Reads ((readHead 5).then fun n => if n = 1 then (readText tSome).then fun _ => readBytes.then fun h => P.ret (Spec.obj h) else P.fail)
        (head 5 1 ++ (text tSome ++ bytes b)) (.obj b) := by
      refine reads_then (reads_head 5 1 (by omega)) ?_
      rw [if_pos rfl]
      exact reads_then (reads_text tSome) (reads_then_ret (reads_bytes b) rfl)
    have hh := reads_head 5 1 (by omega)
    show Reads readSpec (head 5 1 ++ text tSome ++ bytes b) _
    rw [List.append_assoc]
    constructor
    · intro r
      have := h.1 r
      unfold readSpec
      rw [List.append_assoc] at this ⊢
      simp only [P.then, hh.1] at this ⊢
      exact this
    · intro k hk
      have := h.2 k hk
      unfold readSpec
      cases k with
      | zero => rfl
      | succ k =>
        have e : (head 5 1 ++ (text tSome ++ bytes b)).take (k + 1) = head 5 1 ++ (text tSome ++ bytes b).take k := rfl
        rw [e] at this ⊢
        simp only [P.then, hh.1] at this ⊢
        exact this

theorem reads_entry (kv : Nat × Spec) : Reads readEntry (head 0 kv.1 ++ encSpec kv.2) kv :=
  reads_then (reads_head 0 _ (by omega)) (reads_then_ret (reads_spec kv.2) rfl)

theorem reads_map (m : List (Nat × Spec)) : Reads readMap (encMap m) m :=
  reads_then (reads_head 5 _ (by omega)) (reads_times m fun kv _ => reads_entry kv)

theorem reads_file (f : MapFile) : Reads readFile (encFile f) f := by
  unfold readFile encFile
  refine reads_then (reads_head 5 5 (by omega)) ?_
  rw [if_pos rfl]
  refine reads_then (t := []) (reads_ret ()) ?_
  refine reads_then (reads_text _) (reads_then (reads_byteList _) ?_)
  refine reads_then (reads_text _) (reads_then (reads_head 0 _ (by omega)) ?_)
  refine reads_then (reads_text _) (reads_then (reads_byteList _) ?_)
  refine reads_then (reads_text _) (reads_then (reads_head 0 _ (by omega)) ?_)
  exact reads_then (reads_text _) (reads_then_ret (reads_bytes _) rfl)

/-! ## JSON -/

theorem dec_digits (n : Nat) : dec n ≠ [] ∧ (∀ x ∈ dec n, isDigit x = true) ∧ ofDigits (dec n) = n ∧ ((dec n).head? = some 48 → n = 0) ∧
    (n = 0 → (dec n).length = 1) := by
  induction n using Nat.strongRecOn with
  | ind n ih =>
    unfold dec
    split
    · rename_i h
      have e : (UInt8.ofNat (48 + n)).toNat = 48 + n := toNat_lt (by omega)
      refine ⟨by simp, ?_, ?_, ?_, fun _ => rfl⟩
      · intro x hx
        rw [List.mem_singleton] at hx
        subst hx
        simp only [isDigit, e, Bool.and_eq_true, decide_eq_true_eq]
        omega
      · simp only [ofDigits, List.foldl_cons, List.foldl_nil, e]
        omega
      · intro hx
        simp only [List.head?_cons, Option.some.injEq] at hx
        have := congrArg UInt8.toNat hx
        rw [e] at this
        have : (48 : UInt8).toNat = 48 := rfl
        omega
    · rename_i h
      obtain ⟨h1, h2, h3, h4, h5⟩ := ih (n / 10) (by omega)
      have e : (UInt8.ofNat (48 + n % 10)).toNat = 48 + n % 10 := toNat_lt (by omega)
      refine ⟨by simp, ?_, ?_, ?_, by omega⟩
      · intro x hx
        rcases List.mem_append.mp hx with hx | hx
        · exact h2 x hx
        · rw [List.mem_singleton] at hx
          subst hx
          simp only [isDigit, e, Bool.and_eq_true, decide_eq_true_eq]
          omega
      · unfold ofDigits at h3 ⊢
        rw [List.foldl_append, h3]
        simp only [List.foldl_cons, List.foldl_nil, e]
        omega
      · intro hx
        have := h4 (by
          cases hd : dec (n / 10) with
          | nil => exact absurd hd h1
          | cons y l => rw [hd] at hx; exact hx)
        omega

theorem takeWhile_stop {p : UInt8 → Bool} {l r : Bytes} {x : UInt8} (hl : ∀ y ∈ l, p y = true) (hx : p x = false) :
    (l ++ x :: r).takeWhile p = l ∧ (l ++ x :: r).dropWhile p = x :: r := by
  induction l with
  | nil => simp [hx]
  | cons y l ih =>
    have hy := hl y (by simp)
    obtain ⟨h1, h2⟩ := ih fun z hz => hl z (by simp [hz])
    simp [List.takeWhile_cons, List.dropWhile_cons, hy, h1, h2]

theorem dropWhile_all {p : UInt8 → Bool} {l : Bytes} (hl : ∀ y ∈ l, p y = true) : l.dropWhile p = [] := by
  induction l with
  | nil => rfl
  | cons y l ih => simp [hl y (by simp), ih fun z hz => hl z (by simp [hz])]

theorem readDec_stop (n : Nat) {x : UInt8} (r : Bytes) (hx : isDigit x = false) : readDec (dec n ++ x :: r) = some (n, x :: r) := by
  obtain ⟨h1, h2, h3, h4, h5⟩ := dec_digits n
  obtain ⟨e1, e2⟩ := takeWhile_stop (r := r) h2 hx
  unfold readDec
  simp only [e1, e2]
  rw [if_neg (by simp), if_neg h1, if_neg, h3]
  rintro ⟨h6, h7⟩
  exact h7 (h5 (h4 h6))

theorem readDec_cut {l : Bytes} (h : ∀ x ∈ l, isDigit x = true) : readDec l = none := by
  unfold readDec
  simp only [dropWhile_all h, if_true]

/-- A number is read with the sign behind it that is not a digit. -/
theorem reads_until {α β : Type} {p : P α} {f : α → P β} {t : Bytes} {a : α} {x : UInt8} {u : Bytes} {b : β} (hs : ∀ r, p (t ++ x :: r) = some (a, x :: r))
    (hc : ∀ k, k ≤ t.length → p (t.take k) = none) (h : Reads (f a) (x :: u) b) : Reads (p.then f) (t ++ (x :: u)) b := by
  constructor
  · intro r
    rw [List.append_assoc, List.cons_append, then_some (hs _)]
    exact h.1 r
  · intro k hk
    by_cases hlt : k ≤ t.length
    · rw [List.take_append_of_le_length hlt]
      unfold P.then
      rw [hc k hlt]
    · rw [take_append_ge (by omega)]
      obtain ⟨j, hj⟩ : ∃ j, k - t.length = j + 1 := ⟨k - t.length - 1, by omega⟩
      rw [hj]
      rw [List.take_succ_cons, then_some (hs _)]
      exact h.2 (j + 1) (by rw [List.length_append] at hk; omega)

theorem dec_cut (n k : Nat) : readDec ((dec n).take k) = none := readDec_cut fun y hy => (dec_digits n).2.1 y (List.mem_of_mem_take hy)

theorem reads_dec {β : Type} {f : Nat → P β} {x : UInt8} {u : Bytes} {b : β} (n : Nat) (hx : isDigit x = false) (h : Reads (f n) (x :: u) b) :
    Reads (readDec.then f) (dec n ++ (x :: u)) b := reads_until (fun r => readDec_stop n r hx) (fun k _ => dec_cut n k) h

theorem sym_plain {n : Nat} (h : n < 64) : Base64.sym n ≠ quote := by
  have : ∀ n : Fin 64, Base64.sym n ≠ quote := by decide
  exact this ⟨n, h⟩

theorem encode_plain : ∀ (b : Bytes), ∀ x ∈ Base64.encode b, x ≠ quote
  | [], x, hx => by cases hx
  | [a], x, hx => by
    have := a.toNat_lt
    simp only [Base64.encode, List.mem_cons, List.not_mem_nil, or_false] at hx
    rcases hx with rfl | rfl | rfl | rfl
    · exact sym_plain (by omega)
    · exact sym_plain (by omega)
    · decide
    · decide
  | [a, b], x, hx => by
    have := a.toNat_lt
    have := b.toNat_lt
    simp only [Base64.encode, List.mem_cons, List.not_mem_nil, or_false] at hx
    rcases hx with rfl | rfl | rfl | rfl
    · exact sym_plain (by omega)
    · exact sym_plain (by omega)
    · exact sym_plain (by omega)
    · decide
  | a :: b :: c :: r, x, hx => by
    have := a.toNat_lt
    have := b.toNat_lt
    have := c.toNat_lt
    simp only [Base64.encode, List.mem_cons] at hx
    rcases hx with rfl | rfl | rfl | rfl | hx
    · exact sym_plain (by omega)
    · exact sym_plain (by omega)
    · exact sym_plain (by omega)
    · exact sym_plain (by omega)
    · exact encode_plain r x hx

theorem reads_string {t : Bytes} (h : ∀ x ∈ t, x ≠ quote) : Reads readString (t ++ [quote]) t := by
  have hp : ∀ x ∈ t, decide (x ≠ quote) = true := fun x hx => by simpa using h x hx
  constructor
  · intro r
    obtain ⟨e1, e2⟩ := takeWhile_stop (p := fun x => decide (x ≠ quote)) (r := r) hp (x := quote) (by simp)
    rw [List.append_assoc]
    unfold readString
    rw [show [quote] ++ r = quote :: r from rfl, e2, e1]
  · intro k hk
    rw [List.length_append, List.length_singleton] at hk
    rw [List.take_append_of_le_length (by omega)]
    unfold readString
    rw [dropWhile_all fun y hy => hp y (List.mem_of_mem_take hy)]

theorem reads_key (k : Bytes) : Reads readKey (Base64.encode k ++ [quote]) k :=
  reads_then_ret (reads_string (encode_plain k)) (by simp only [Base64.decode_encode])

/-- The first of two readers sees another first sign. -/
theorem lit_other {x y : UInt8} (t r : Bytes) (h : x ≠ y) : lit (x :: t) (y :: r) = none := by
  unfold lit P.then takeN
  dsimp only
  split
  · rename_i a b he
    split at he
    · simp only [List.length_cons, List.take_succ_cons, Option.some.injEq, Prod.mk.injEq] at he
      rw [← he.1, if_neg (by simp [Ne.symm h])]
      rfl
    · cases he
  · rfl

theorem lit_nil {x : UInt8} (t : Bytes) : lit (x :: t) [] = none := by
  simp [lit, P.then, takeN]

theorem reads_second {α : Type} {p q : P α} {x y : UInt8} {t u : Bytes} {a : α} (hxy : x ≠ y) (h : Reads q (y :: u) a) :
    Reads (fun b => match lit (x :: t) b with | some (_, r) => p r | none => q b) (y :: u) a := by
  constructor
  · intro r
    show (match lit (x :: t) (y :: (u ++ r)) with | some (_, r) => p r | none => q (y :: (u ++ r))) = _
    rw [lit_other _ _ hxy]
    exact h.1 r
  · intro k hk
    cases k with
    | zero =>
      show (match lit (x :: t) [] with | some (_, r) => p r | none => q []) = _
      rw [lit_nil]
      exact h.2 0 hk
    | succ k =>
      show (match lit (x :: t) (y :: u.take k) with | some (_, r) => p r | none => q (y :: u.take k)) = _
      rw [lit_other _ _ hxy]
      exact h.2 (k + 1) hk

/-- The first of two readers, when what the second would read begins differently. -/
theorem reads_first {α : Type} {p q : P α} {t u : Bytes} {a : α} (h : Reads p u a) (hq : ∀ k, k < t.length → q (t.take k) = none) :
    Reads (fun b => match lit t b with | some (_, r) => p r | none => q b) (t ++ u) a := by
  have hl := reads_lit t
  constructor
  · intro r
    dsimp only
    rw [List.append_assoc, hl.1]
    exact h.1 r
  · intro k hk
    dsimp only
    by_cases hlt : k < t.length
    · rw [List.take_append_of_le_length (by omega), hl.2 k hlt]
      exact hq k hlt
    · rw [take_append_ge (by omega), hl.1]
      exact h.2 _ (by rw [List.length_append] at hk; omega)

theorem reads_optKey (k : Option Bytes) : Reads readOptKey (optKey k) k := by
  cases k with
  | none =>
    have h := reads_then_ret (f := fun _ => P.ret (none : Option Bytes)) (reads_lit jNull) rfl
    exact reads_second (x := quote) (y := 110) (t := []) (u := [117, 108, 108]) (by decide) h
  | some k =>
    refine reads_first (t := [quote]) (reads_then_ret (reads_key k) rfl) ?_
    intro j hj
    have : j = 0 := by simp at hj; omega
    subst this
    rfl

theorem dec_cons (n : Nat) : ∃ y l, dec n = y :: l ∧ isDigit y = true := by
  obtain ⟨h1, h2, -⟩ := dec_digits n
  cases hd : dec n with
  | nil => exact absurd hd h1
  | cons y l => exact ⟨y, l, rfl, h2 y (by rw [hd]; simp)⟩

theorem readLevel_neg (r : Bytes) : readLevel (45 :: r) = (readDec.then fun n => if 1 ≤ n ∧ n ≤ 2 ^ 31 then P.ret (2 ^ 32 - n) else P.fail) r := by
  unfold readLevel
  rw [show (45 :: r : Bytes) = [45] ++ r from rfl, (reads_lit [45]).1]

theorem readLevel_pos {b : Bytes} (h : b.head? ≠ some 45) :
    readLevel b = (readDec.then fun n => if 2 ^ 31 ≤ n ∧ n < 2 ^ 32 then P.fail else P.ret n) b := by
  unfold readLevel
  cases b with
  | nil => rw [lit_nil]
  | cons y r => rw [lit_other _ _ (by intro e; subst e; exact h rfl)]

theorem dec_no_minus (n k : Nat) (r : Bytes) (hr : r.head? ≠ some 45) : ((dec n).take k ++ r).head? ≠ some 45 := by
  obtain ⟨y, l, hd, hy⟩ := dec_cons n
  rw [hd]
  cases k with
  | zero => simpa using hr
  | succ k =>
    simp only [List.take_succ_cons, List.cons_append, List.head?_cons, ne_eq, Option.some.injEq]
    intro e
    subst e
    exact absurd hy (by decide)

theorem readLevel_stop (l : Nat) {x : UInt8} (hx : isDigit x = false) (r : Bytes) : readLevel (level l ++ x :: r) = some (l, x :: r) := by
  unfold level
  split
  · rw [List.cons_append, readLevel_neg, then_some (readDec_stop _ _ hx), if_pos (by omega)]
    have : 2 ^ 32 - (2 ^ 32 - l) = l := by omega
    rw [this]
    rfl
  · rename_i h
    have hd := dec_cons l
    have : (dec l ++ x :: r).head? ≠ some 45 := by
      obtain ⟨y, t, hd, hy⟩ := hd
      rw [hd]
      simp only [List.cons_append, List.head?_cons, ne_eq, Option.some.injEq]
      intro e
      subst e
      exact absurd hy (by decide)
    rw [readLevel_pos this, then_some (readDec_stop _ _ hx), if_neg h]
    rfl

theorem readLevel_cut (l k : Nat) : readLevel ((level l).take k) = none := by
  unfold level
  split
  · cases k with
    | zero => rfl
    | succ k =>
      rw [List.take_succ_cons, readLevel_neg]
      unfold P.then
      rw [dec_cut]
  · have := dec_no_minus l k [] (by simp)
    rw [List.append_nil] at this
    rw [readLevel_pos this]
    unfold P.then
    rw [dec_cut]

theorem reads_comp (c : Comp) : Reads readComp (comp c) c := by
  cases c with
  | none =>
    have h := reads_then_ret (f := fun _ => P.ret Comp.none) (reads_lit jNone) rfl
    exact reads_second (x := 123) (y := 34) (t := jZstd.drop 1) (u := jNone.drop 1) (by decide) h
  | zstd l =>
    refine reads_first (t := jZstd) (reads_until (x := 125) (u := [125]) (readLevel_stop l (by decide)) (fun k _ => readLevel_cut l k)
      (reads_then_ret (reads_lit (ascii "}}")) rfl)) ?_
    intro k hk
    have : ∀ k : Fin 17, ((lit jNone).then fun _ => P.ret Comp.none) (jZstd.take k) = none := by decide
    exact this ⟨k, hk⟩

theorem reads_meta (m : AMeta) : Reads readMeta (encMeta m) m := by
  unfold readMeta encMeta
  refine reads_then (reads_lit _) ?_
  refine reads_dec m.version (x := 44) (by decide) (reads_then (t := jSsc) (reads_lit _) ?_)
  refine reads_dec m.ssc (x := 44) (by decide) (reads_then (t := jKey) (reads_lit _) ?_)
  refine reads_then (reads_optKey _) (reads_then (reads_lit _) ?_)
  refine reads_then (reads_comp _) (reads_then (reads_lit _) ?_)
  refine reads_then (reads_key _) (reads_then (reads_lit _) ?_)
  exact reads_then (reads_key _) (reads_then_ret (reads_lit _) rfl)

end Verif.Formats
