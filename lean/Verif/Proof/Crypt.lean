import Verif.Model.Crypt
import Verif.Proof.Dev

/-! Lemmas about the encrypting device. -/

set_option maxRecDepth 8000

namespace Verif.Crypt
open Verif Verif.Disk

/-! ### A device whose contents are re-encoded sector by sector -/

section Codec
variable {O A B : Type} [DecidableEq O]

/-- The device as seen through `dec`; `z` stands for write data outside the written range. -/
def absOp (z : A) (enc : Nat → A → B) (dec : Nat → B → A) : Op B → Op A
  | .read off cnt got => .read off cnt fun x => (got x).map (dec x)
  | .write off cnt data done => .write off cnt (fun x => if covers off cnt x then dec x (data x) else z) done
  | .flush snap => .flush fun x v => snap x (enc x v)

def absDev (z : A) (enc : Nat → A → B) (dec : Nat → B → A) (d : Dev O B) : Dev O A :=
  { vol := fun x => dec x (d.vol x)
    pers := fun x v => d.pers x (enc x v)
    ops := fun o => (d.ops o).map (absOp z enc dec) }

variable {z : A} {enc : Nat → A → B} {dec : Nat → B → A}

/-- `enc x` and `dec x` are inverse to each other. -/
def Inverse (enc : Nat → A → B) (dec : Nat → B → A) : Prop := (∀ x a, dec x (enc x a) = a) ∧ ∀ x b, enc x (dec x b) = b

theorem Inverse.eq_iff (h : Inverse enc dec) {x : Nat} {a : A} {b : B} : enc x a = b ↔ a = dec x b :=
  ⟨fun e => by rw [← e, h.1], fun e => by rw [e, h.2]⟩

theorem abs_fresh (h : Inverse enc dec) (v : Nat → B) :
    absDev z enc dec (Dev.fresh v : Dev O B) = Dev.fresh fun x => dec x (v x) := by
  simp only [absDev, Dev.fresh, Option.map_none, h.eq_iff]

theorem abs_issueRead (d : Dev O B) (o : O) (off cnt : Nat) :
    absDev z enc dec (d.issueRead o off cnt) = (absDev z enc dec d).issueRead o off cnt := by
  simp only [absDev, Dev.issueRead, Dev.mk.injEq, true_and]
  funext o'
  simp only [upd]; split <;> simp [absOp]

theorem abs_addSnap (h : Inverse enc dec) (off cnt : Nat) (data : Nat → B) (op : Op B) :
    absOp z enc dec (op.addSnap off cnt data) =
      (absOp z enc dec op).addSnap off cnt fun x => if covers off cnt x then dec x (data x) else z := by
  cases op with
  | flush snap =>
    simp only [Op.addSnap, absOp, Op.flush.injEq]
    funext x v
    by_cases hc : covers off cnt x <;> simp [hc, h.eq_iff]
  | _ => simp [Op.addSnap, absOp]

theorem abs_issueWrite (h : Inverse enc dec) (d : Dev O B) (o : O) (off cnt : Nat) (data : Nat → B) :
    absDev z enc dec (d.issueWrite o off cnt data) =
      (absDev z enc dec d).issueWrite o off cnt fun x => if covers off cnt x then dec x (data x) else z := by
  simp only [absDev, Dev.issueWrite, Dev.mk.injEq, true_and]
  refine ⟨?_, ?_⟩
  · funext x v
    by_cases hc : covers off cnt x <;> simp [hc, h.eq_iff]
  · funext o'
    simp only [upd]; split
    · simp [absOp]
    · cases d.ops o' with
      | none => rfl
      | some op => simp only [Option.map_some, abs_addSnap h]

theorem abs_inflight (h : Inverse enc dec) (d : Dev O B) (x : Nat) (v : A) :
    (absDev z enc dec d).inflight x v ↔ d.inflight x (enc x v) := by
  simp only [Dev.inflight, absDev, Option.map_eq_some_iff]
  constructor
  · rintro ⟨o, off, cnt, data, done, ⟨op, h1, h2⟩, hc, rfl⟩
    cases op <;> simp only [absOp, Op.write.injEq, reduceCtorEq] at h2
    obtain ⟨rfl, rfl, rfl, rfl⟩ := h2
    exact ⟨o, _, _, _, _, h1, hc, by simp [hc, h.2]⟩
  · rintro ⟨o, off, cnt, data, done, h1, hc, h2⟩
    exact ⟨o, _, _, _, _, ⟨_, h1, rfl⟩, hc, by simp [hc, ← h2, h.1]⟩

theorem abs_issueFlush (h : Inverse enc dec) (d : Dev O B) (o : O) :
    absDev z enc dec (d.issueFlush o) = (absDev z enc dec d).issueFlush o := by
  have h3 : (absOp z enc dec (.flush fun x v => v = d.vol x ∨ d.inflight x v)) =
      .flush fun x v => v = (absDev z enc dec d).vol x ∨ (absDev z enc dec d).inflight x v := by
    simp only [absOp, Op.flush.injEq]
    funext x v
    rw [abs_inflight h]; simp [absDev, h.eq_iff]
  simp only [Dev.issueFlush] at h3 ⊢
  rw [← h3]
  simp only [absDev, Dev.mk.injEq, true_and]
  funext o'
  simp only [upd]; split <;> simp

theorem abs_exec (d : Dev O B) (o : O) (x : Nat) :
    absDev z enc dec (d.exec o x) = (absDev z enc dec d).exec o x := by
  rcases hop : d.ops o with _ | (⟨off, cnt, got⟩ | ⟨off, cnt, data, done⟩ | ⟨snap⟩)
  · simp [Dev.exec, absDev, hop]
  · by_cases hc : covers off cnt x
    · simp only [Dev.exec, hop, hc, if_true, absDev, Option.map_some, absOp, Dev.mk.injEq, true_and]
      funext o'
      simp only [upd]; split
      · simp only [Option.map_some, absOp, Option.some.injEq, Op.read.injEq, true_and]
        funext y; simp only [upd]; split <;> simp_all
      · rfl
    · simp [Dev.exec, hop, hc, absDev, absOp]
  · by_cases hc : covers off cnt x
    · simp only [Dev.exec, hop, hc, if_true, absDev, Option.map_some, absOp, Dev.mk.injEq, true_and]
      refine ⟨?_, ?_⟩
      · funext y; simp only [upd]; split
        · subst_vars; simp
        · rfl
      · funext o'
        simp only [upd]; split <;> simp [absOp]
    · simp [Dev.exec, hop, hc, absDev, absOp]
  · simp [Dev.exec, absDev, hop, absOp]

theorem abs_finished (op : Op B) : (absOp z enc dec op).finished ↔ op.finished := by
  cases op <;> simp [absOp, Op.finished]

theorem abs_mayComplete (d : Dev O B) (o : O) (ok : Bool) :
    (absDev z enc dec d).mayComplete o ok ↔ d.mayComplete o ok := by
  simp only [Dev.mayComplete, absDev, Option.map_eq_some_iff]
  constructor
  · rintro ⟨_, ⟨op, h1, rfl⟩, h2⟩; exact ⟨op, h1, fun e => (abs_finished op).1 (h2 e)⟩
  · rintro ⟨op, h1, h2⟩; exact ⟨_, ⟨op, h1, rfl⟩, fun e => (abs_finished op).2 (h2 e)⟩

theorem abs_complete (d : Dev O B) (o : O) (ok : Bool) :
    absDev z enc dec (d.complete o ok) = (absDev z enc dec d).complete o ok := by
  simp only [absDev, Dev.complete, Dev.mk.injEq, true_and]
  refine ⟨?_, ?_⟩
  · funext x v
    simp only [eq_iff_iff]
    refine and_congr_right fun _ => ?_
    rcases d.ops o with _ | (⟨off, cnt, got⟩ | ⟨off, cnt, data, done⟩ | ⟨snap⟩) <;> simp [absOp]
  · funext o'; simp only [upd]; split <;> simp

theorem abs_survives (h : Inverse enc dec) (d : Dev O B) (v : Nat → B) :
    d.survives v ↔ (absDev z enc dec d).survives fun x => dec x (v x) := by
  simp [Dev.survives, absDev, h.2]

/-- The data of a completed read, decoded at the offset `off` it was issued with. -/
theorem abs_result (d : Dev O B) {o : O} {off cnt : Nat} {got : Nat → Option B} (ho : d.ops o = some (.read off cnt got)) :
    (absDev z enc dec d).result o true = (List.range cnt).map fun i => (got (off + i)).map (dec (off + i)) := by
  simp [Dev.result, absDev, ho, absOp]

end Codec

/-! ### The cipher loop -/

theorem splice_slice_same {α} (b s : List α) (a n : Nat) (hs : s.length = n) (h : a + n ≤ b.length) :
    slice (splice b a s) a n = s := by
  subst hs
  simp only [slice, splice, List.append_assoc]
  rw [List.drop_append_of_le_length (by simp; omega)]
  have : (List.take a b).length = a := by simp; omega
  rw [List.drop_of_length_le (by omega)]
  simp

theorem splice_getElem? {α} (b s : List α) (a j : Nat) (h : a + s.length ≤ b.length) :
    (splice b a s)[j]? = if a ≤ j ∧ j < a + s.length then s[j - a]? else b[j]? := by
  simp only [splice]
  have hl : (List.take a b).length = a := by simp; omega
  by_cases h1 : j < a
  · rw [if_neg (by omega), List.append_assoc, List.getElem?_append_left (by omega), List.getElem?_take, if_pos h1]
  · by_cases h2 : j < a + s.length
    · rw [if_pos (by omega), List.append_assoc, List.getElem?_append_right (by omega), hl,
        List.getElem?_append_left (by omega)]
    · rw [if_neg (by omega), List.getElem?_append_right (by simp; omega), List.getElem?_drop]
      congr 1
      simp only [List.length_append, hl]; omega

theorem slice_getElem? {α} (b : List α) (a n j : Nat) : (slice b a n)[j]? = if j < n then b[a + j]? else none := by
  simp [slice, List.getElem?_take, List.getElem?_drop]

theorem slice_splice_disjoint {α} (b s : List α) (a a' n : Nat) (h : a + s.length ≤ b.length)
    (hd : a' + n ≤ a ∨ a + s.length ≤ a') : slice (splice b a s) a' n = slice b a' n := by
  apply List.ext_getElem?
  intro j
  rw [slice_getElem?, slice_getElem?]
  split
  · rw [splice_getElem? _ _ _ _ h, if_neg (by omega)]
  · rfl

/-- What the loop does: sector `j` of the buffer is transformed for `i ≤ j < i + n`, the rest of the buffer is left
alone, and a buffer that is too short is a panic. -/
theorem cryptLoop_spec (f : Nat → Bytes → Bytes) (hf : ∀ x s, s.length = 512 → (f x s).length = 512) (start : Nat) :
    ∀ n i buf, (i + n) * 512 ≤ buf.length → ∃ out, cryptLoop f start i n buf = .ok out ∧ out.length = buf.length ∧
      (∀ j, i ≤ j → j < i + n → slice out (j * 512) 512 = f (start + j) (slice buf (j * 512) 512)) ∧
      (∀ b, b < i * 512 ∨ (i + n) * 512 ≤ b → out[b]? = buf[b]?) := by
  intro n
  induction n with
  | zero => exact fun i buf _ => ⟨buf, rfl, rfl, by omega, fun _ _ => rfl⟩
  | succ n ih =>
    intro i buf hl
    have hs : (slice buf (i * 512) 512).length = 512 := slice_length _ _ _ (by omega)
    have hfl := hf (start + i) _ hs
    have hfit : i * 512 + (f (start + i) (slice buf (i * 512) 512)).length ≤ buf.length := by omega
    obtain ⟨out, h1, h2, h3, h4⟩ := ih (i + 1) (splice buf (i * 512) (f (start + i) (slice buf (i * 512) 512)))
      (by rw [splice_length _ _ _ hfit]; omega)
    rw [splice_length _ _ _ hfit] at h2
    refine ⟨out, ?_, h2, fun j hj1 hj2 => ?_, fun b hb => ?_⟩
    · rw [cryptLoop, if_pos (by omega), h1]
    · rcases Nat.eq_or_lt_of_le hj1 with rfl | hlt
      · have : slice out (i * 512) 512 =
            slice (splice buf (i * 512) (f (start + i) (slice buf (i * 512) 512))) (i * 512) 512 := by
          apply List.ext_getElem?
          intro b
          rw [slice_getElem?, slice_getElem?]
          split
          · exact h4 _ (by omega)
          · rfl
        rw [this, splice_slice_same _ _ _ _ hfl (by omega)]
      · rw [h3 j hlt (by omega), slice_splice_disjoint _ _ _ _ _ hfit (by omega)]
    · rw [h4 b (by omega), splice_getElem? _ _ _ _ hfit, if_neg (by omega)]

theorem cryptLoop_short (f : Nat → Bytes → Bytes) (hf : ∀ x s, s.length = 512 → (f x s).length = 512) (start : Nat) :
    ∀ n i buf, 0 < n → buf.length < (i + n) * 512 → cryptLoop f start i n buf = .error .panic := by
  intro n
  induction n with
  | zero => intro i buf h; omega
  | succ n ih =>
    intro i buf _ hl
    rw [cryptLoop]
    split
    · rename_i h
      have hs : (slice buf (i * 512) 512).length = 512 := slice_length _ _ _ (by omega)
      have hfl := hf (start + i) _ hs
      have hn : 0 < n := by
        rcases Nat.eq_zero_or_pos n with rfl | h
        · omega
        · exact h
      exact ih (i + 1) _ hn (by rw [splice_length _ _ _ (by omega)]; omega)
    · rfl

variable {p : Xts} {k : Keys}

/-- The cipher of one sector, as functions on sectors. -/
def encS (hp : p.Lawful) (k : Keys) (x : Nat) (s : Sector) : Sector := ⟨encSector p k x s.1, hp.enc_len _ _ _ _ s.2⟩
def decS (hp : p.Lawful) (k : Keys) (x : Nat) (s : Sector) : Sector := ⟨decSector p k x s.1, hp.dec_len _ _ _ _ s.2⟩

theorem inverse (hp : p.Lawful) (k : Keys) : Inverse (encS hp k) (decS hp k) :=
  ⟨fun x a => Subtype.ext (hp.dec_enc _ _ _ _ a.2), fun x a => Subtype.ext (hp.enc_dec _ _ _ _ a.2)⟩

theorem encrypt_ok (hp : p.Lawful) {buf : Bytes} {start count : Nat} (h : count * 512 ≤ buf.length) :
    ∃ out, encrypt p k buf start count = .ok out ∧ out.length = buf.length ∧
      (∀ j, j < count → sectorAt out j = encS hp k (start + j) (sectorAt buf j)) ∧
      (∀ b, count * 512 ≤ b → out[b]? = buf[b]?) := by
  obtain ⟨out, h1, h2, h3, h4⟩ := cryptLoop_spec (encSector p k) (fun x s hs => hp.enc_len _ _ _ _ hs) start count 0 buf
    (by omega)
  refine ⟨out, h1, h2, fun j hj => ?_, fun b hb => h4 b (by omega)⟩
  apply Subtype.ext
  have hb : (j + 1) * 512 ≤ buf.length := Nat.le_trans (Nat.mul_le_mul_right _ hj) h
  simp only [sectorAt, encS, h2, hb, dif_pos]
  exact h3 j (by omega) (by omega)

theorem decrypt_ok (hp : p.Lawful) {buf : Bytes} {start count : Nat} (h : count * 512 ≤ buf.length) :
    ∃ out, decrypt p k buf start count = .ok out ∧ out.length = buf.length ∧
      (∀ j, j < count → sectorAt out j = decS hp k (start + j) (sectorAt buf j)) ∧
      (∀ b, count * 512 ≤ b → out[b]? = buf[b]?) := by
  obtain ⟨out, h1, h2, h3, h4⟩ := cryptLoop_spec (decSector p k) (fun x s hs => hp.dec_len _ _ _ _ hs) start count 0 buf
    (by omega)
  refine ⟨out, h1, h2, fun j hj => ?_, fun b hb => h4 b (by omega)⟩
  apply Subtype.ext
  have hb : (j + 1) * 512 ≤ buf.length := Nat.le_trans (Nat.mul_le_mul_right _ hj) h
  simp only [sectorAt, decS, h2, hb, dif_pos]
  exact h3 j (by omega) (by omega)

theorem tweak_inj {x y : Nat} (hx : x < 2 ^ 64) (hy : y < 2 ^ 64) (h : tweak x = tweak y) : x = y := by
  have := List.append_cancel_left h
  exact le_inj (n := 8) (by simpa using hx) (by simpa using hy) this

/-! ### Buffers of completed reads -/

theorem readBuf_length (r : List (Option Sector)) : (readBuf r).length = r.length * 512 := by
  induction r with
  | nil => rfl
  | cons a r ih =>
    simp only [readBuf, List.flatMap_cons, List.length_append, List.length_cons] at ih ⊢
    rw [ih]
    cases a with
    | none => simp [secBytes]; omega
    | some s => simp [secBytes, s.2]; omega

theorem readBuf_slice (r : List (Option Sector)) (i : Nat) (hi : i < r.length) :
    slice (readBuf r) (i * 512) 512 = secBytes r[i] := by
  induction r generalizing i with
  | nil => simp at hi
  | cons a r ih =>
    have ha : (secBytes a).length = 512 := by
      cases a with
      | none => exact zeros_length 512
      | some s => exact s.2
    cases i with
    | zero =>
      simp only [readBuf, List.flatMap_cons, slice, Nat.zero_mul, List.drop_zero, List.getElem_cons_zero]
      rw [List.take_append_of_le_length (by omega), List.take_of_length_le (by omega)]
    | succ i =>
      have := ih i (by simpa using hi)
      simp only [List.getElem_cons_succ]
      rw [← this]
      simp only [readBuf, List.flatMap_cons, slice]
      rw [List.drop_append, List.drop_of_length_le (by omega), ha, List.nil_append]
      congr 2
      omega

theorem readBuf_sectorAt (r : List (Option Sector)) (i : Nat) (s : Sector) (h : r[i]? = some (some s)) :
    sectorAt (readBuf r) i = s := by
  have hi : i < r.length := by
    rcases Nat.lt_or_ge i r.length with h' | h'
    · exact h'
    · rw [List.getElem?_eq_none h'] at h; simp at h
  have hb : (i + 1) * 512 ≤ (readBuf r).length := by rw [readBuf_length]; exact Nat.mul_le_mul_right _ hi
  apply Subtype.ext
  simp only [sectorAt, hb, dif_pos]
  rw [readBuf_slice r i hi]
  have : r[i] = some s := by rw [List.getElem?_eq_getElem hi] at h; simpa using h
  rw [this]; rfl

/-- The sectors of a buffer. -/
def sectorsOf (buf : Bytes) : List (Option Sector) := (List.range (buf.length / 512)).map fun i => some (sectorAt buf i)

end Verif.Crypt
