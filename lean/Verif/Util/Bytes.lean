/-! Little-endian integer codecs and list splicing, shared by all byte-level models. -/

namespace Verif

abbrev Bytes := List UInt8

/-- `n` zero bytes. -/
def zeros (n : Nat) : Bytes := List.replicate n 0

@[simp] theorem zeros_length (n : Nat) : (zeros n).length = n := by simp [zeros]

theorem zeros_take (a n : Nat) (h : a ≤ n) : (zeros n).take a = zeros a := by
  simp only [zeros, List.take_replicate, Nat.min_eq_left h]

/-- `x.to_le_bytes()` of an integer type of `n` bytes (Rust std). -/
def le : Nat → Nat → Bytes
  | 0, _ => []
  | n + 1, x => UInt8.ofNat (x % 256) :: le n (x / 256)

/-- `uN::from_le_bytes` (Rust std). -/
def fromLe : Bytes → Nat
  | [] => 0
  | b :: bs => b.toNat + 256 * fromLe bs

@[simp] theorem le_length (n x : Nat) : (le n x).length = n := by
  induction n generalizing x with
  | zero => rfl
  | succ n ih => simp [le, ih]

theorem fromLe_le (n x : Nat) : fromLe (le n x) = x % 256 ^ n := by
  induction n generalizing x with
  | zero => simp [le, fromLe, Nat.mod_one]
  | succ n ih =>
    simp only [le, fromLe, ih]
    have h : (UInt8.ofNat (x % 256)).toNat = x % 256 := by
      simp
    rw [h, Nat.pow_succ, Nat.mul_comm (256 ^ n) 256, Nat.mod_mul]

theorem fromLe_le_of_lt {n x : Nat} (h : x < 256 ^ n) : fromLe (le n x) = x := by
  rw [fromLe_le, Nat.mod_eq_of_lt h]

theorem fromLe_lt (bs : Bytes) : fromLe bs < 256 ^ bs.length := by
  induction bs with
  | nil => simp [fromLe]
  | cons b bs ih =>
    simp only [fromLe, List.length_cons, Nat.pow_succ]
    have := b.toNat_lt
    omega

theorem le_fromLe (bs : Bytes) : le bs.length (fromLe bs) = bs := by
  induction bs with
  | nil => rfl
  | cons b bs ih =>
    have hb := b.toNat_lt
    simp only [fromLe, List.length_cons, le]
    have h1 : (b.toNat + 256 * fromLe bs) % 256 = b.toNat := by omega
    have h2 : (b.toNat + 256 * fromLe bs) / 256 = fromLe bs := by omega
    rw [h1, h2, ih]
    simp

theorem fromLe_inj {a b : Bytes} (hl : a.length = b.length) (h : fromLe a = fromLe b) : a = b := by
  rw [← le_fromLe a, ← le_fromLe b, hl, h]

theorem le_inj {n x y : Nat} (hx : x < 256 ^ n) (hy : y < 256 ^ n) (h : le n x = le n y) : x = y := by
  rw [← fromLe_le_of_lt hx, ← fromLe_le_of_lt hy, h]

/-- Overwrite `bytes` at offset `off` (`buf[off..off+len].copy_from_slice(bytes)`). -/
def splice {α} (buf : List α) (off : Nat) (bytes : List α) : List α :=
  buf.take off ++ bytes ++ buf.drop (off + bytes.length)

theorem splice_length {α} (buf bytes : List α) (off : Nat) (h : off + bytes.length ≤ buf.length) :
    (splice buf off bytes).length = buf.length := by
  simp [splice]; omega

theorem splice_append_right {α} (a b bytes : List α) (off : Nat) (h : a.length ≤ off) :
    splice (a ++ b) off bytes = a ++ splice b (off - a.length) bytes := by
  simp only [splice, List.take_append, List.drop_append]
  rw [List.take_of_length_le h, List.drop_of_length_le (by omega : a.length ≤ off + bytes.length)]
  simp only [List.nil_append, List.append_assoc]
  congr 4
  omega

theorem splice_zero_exact {α} (a b bytes : List α) (h : bytes.length = a.length) :
    splice (a ++ b) 0 bytes = bytes ++ b := by
  simp [splice, h]

/-- Slice `buf[a..a+n]` (in-range slices only; out-of-range ones are explicit panics in the models). -/
def slice {α} (buf : List α) (a n : Nat) : List α := (buf.drop a).take n

theorem slice_length {α} (buf : List α) (a n : Nat) (h : a + n ≤ buf.length) :
    (slice buf a n).length = n := by
  simp [slice]; omega

end Verif
