import Verif.Spec.InitCrash
import Verif.Props.Init
import Verif.Proof.MetaDev
import Verif.Proof.LiveArchive

/-! # Interrupted initialisation: proofs -/

set_option maxRecDepth 8000

namespace Verif.Init
open Verif Verif.Metadata Verif.Disk Verif.Crypt Verif.Lazy

variable {buf : Bytes} {n : Nat} {v w : Nat → Sector}

theorem sectorBytes_len (w : Nat → Sector) : ∀ x, ((fun x => (w x).1) x).length = 512 := fun x => (w x).2

/-- Every sector found is an old or a new one. -/
theorem Interrupted.mix (h : Interrupted buf n v w) : ∀ x, w x = v x ∨ x < n ∧ w x = sectorAt buf x := by
  obtain ⟨es, d, hp, hr, hs⟩ := h
  intro x
  rcases (hr.origin rfl).1 x _ (hs x) with h | ⟨q, id, off, cnt, data, hm, hc, he⟩
  · exact .inl h
  · have hm := hp.subset hm
    simp only [saveEvents, List.mem_cons, Ev.issue.injEq, Req.write.injEq, reduceCtorEq, and_false, false_and, or_false, List.not_mem_nil] at hm
    obtain ⟨-, -, rfl, rfl, rfl⟩ := hm
    refine .inr ⟨by have := hc.2; omega, ?_⟩
    rw [he, bufData, if_pos hc, Nat.sub_zero]

/-- Any choice of old and new sectors may be found. -/
theorem Interrupted.any (buf : Bytes) (n : Nat) (v : Nat → Sector) (G : Nat → Bool) :
    Interrupted buf n v fun x => if G x = true ∧ x < n then sectorAt buf x else v x := by
  refine ⟨[.issue 0 0 (.write 0 n (bufData buf 0 n))], _, ⟨[_, _, _], rfl⟩, (Disk.Run.nil _).snoc (.issue _ 0 0 _ rfl), fun x => ?_⟩
  show (Dev.fresh v : Disk Sector).pers x (if G x = true ∧ x < n then sectorAt buf x else v x) ∨ (covers 0 n x ∧ (if G x = true ∧ x < n then sectorAt buf x else v x) = bufData buf 0 n x)
  by_cases h : G x = true ∧ x < n
  · right
    rw [if_pos h]
    have hc : covers 0 n x := ⟨Nat.zero_le _, by omega⟩
    exact ⟨hc, by rw [bufData, if_pos hc, Nat.sub_zero]⟩
  · left
    rw [if_neg h]
    rfl

/-- Reading groups that are all intact succeeds. -/
theorem readGroups_succeeds {b : Bytes} {g n : Nat} {acc : Bytes}
    (h : ∀ i, i < n → 512 + (g + i) * 512 + 512 ≤ b.length ∧ sectorValid (slice b (512 + (g + i) * 512) 512) = true) :
    ∃ r, readGroups b g n acc = .ok r ∧ r.length = acc.length + n * 508 := by
  induction n generalizing g acc with
  | zero => exact ⟨acc, rfl, by simp⟩
  | succ n ih =>
    obtain ⟨h1, h2⟩ := h 0 (by omega)
    simp only [Nat.add_zero] at h1 h2
    obtain ⟨r, hr, hl⟩ := ih (g := g + 1) (acc := acc ++ (slice b (512 + g * 512) 512).take 508) (fun i hi => by
      have := h (i + 1) (by omega)
      rwa [show g + (i + 1) = g + 1 + i by omega] at this)
    refine ⟨r, ?_, ?_⟩
    · unfold readGroups
      simp only []
      rw [if_pos h1, if_pos h2]
      exact hr
    · rw [hl, List.length_append, List.length_take, slice_length _ _ _ (by omega)]
      omega

/-- A buffer with the header of one that loads, and intact sectors of flags, loads. -/
theorem fromBytes_succeeds {b b' : Bytes} {m : Meta} (h : fromBytes b = .ok m) (hl : b'.length = b.length) (ht : b'.take 512 = b.take 512)
    (hv : ∀ i, i < divCeil m.headers.length 508 → sectorValid (slice b' (512 + i * 512) 512) = true) :
    ∃ m', fromBytes b' = .ok m' ∧ m'.shift = m.shift ∧ m'.headers.length = m.headers.length := by
  obtain ⟨h1, h2, h3, h4, h5, h6, h7, h8, h9, h10, h11, all, hall, hh⟩ := fromBytes_ok h
  have t9 : b'.take 9 = b.take 9 := take_of_take ht (by omega)
  have s1 : slice b' 9 2 = slice b 9 2 := slice_of_take ht (by omega)
  have s2 : slice b' 11 2 = slice b 11 2 := slice_of_take ht (by omega)
  have s3 : slice b' 14 4 = slice b 14 4 := slice_of_take ht (by omega)
  have g : b'.getD 13 0 = b.getD 13 0 := getD_of_take ht (by omega)
  obtain ⟨r, hr, hrl⟩ := readGroups_succeeds (b := b') (g := 0) (n := divCeil m.headers.length 508) (acc := []) (fun i hi => by
    rw [Nat.zero_add]
    exact ⟨by omega, hv i hi⟩)
  simp only [List.length_nil, Nat.zero_add] at hrl
  have hle := le_divCeil_mul (a := m.headers.length) (b := 508) (by decide)
  unfold fromBytes at h ⊢
  simp only [] at h ⊢
  rw [hl, ht, t9, s1, s2, s3, g, ← h10]
  rw [← h10] at h
  split at h; · cases h
  rename_i c1
  split at h; · cases h
  rename_i c2
  split at h; · cases h
  rename_i c3
  split at h; · cases h
  rename_i c4
  split at h; · cases h
  rename_i c5
  split at h; · cases h
  rename_i c6
  split at h; · cases h
  rename_i c7
  rw [if_neg c1, if_neg c2, if_neg c3, if_neg c4, if_neg c5, if_neg c6, if_neg c7, hr]
  simp only []
  rw [if_pos (by omega)]
  exact ⟨_, rfl, by rw [h8], by rw [List.length_take]; omega⟩

theorem found_slice (n : Nat) (w : Nat → Sector) {x : Nat} (hx : x < n) :
    slice (devBytes n fun x => (w x).1) (x * 512) 512 = (w x).1 :=
  devBytes_slice n _ (sectorBytes_len w) x hx

theorem found_length (n : Nat) (w : Nat → Sector) : (devBytes n fun x => (w x).1).length = n * 512 := devBytes_length n _ (sectorBytes_len w)

theorem take_slice (b : Bytes) : b.take 512 = slice b (0 * 512) 512 := by simp [slice]

/-- The buffer of a finished initialisation, sector by sector. -/
theorem sectorAt_buf {buf : Bytes} {n x : Nat} (hb : buf.length = n * 512) (hx : x < n) : (sectorAt buf x).1 = slice buf (x * 512) 512 := by
  unfold sectorAt
  rw [dif_pos (by omega)]

end Verif.Init
