import Verif.Spec.Util
import Verif.Spec.Remote
import Mathlib.Data.List.Perm.Lattice

/-! # C50, C51, C52: buffer pool, aligned buffers, printed stripe lists -/

namespace Verif.Tools
open Verif

/-! ## C51 -/

/-- C51: whatever address the allocator picks, an aligned buffer is made exactly for power-of-two alignments; its
usable part starts at a multiple of the alignment, lies inside the allocation, and is the requested number of zeros. -/
theorem C51_aligned (ptr len align : Nat) :
    (ABuf.new ptr len align = none ↔ ¬PowerOfTwo align) ∧
    ∀ b, ABuf.new ptr len align = some b →
      align ∣ b.start ∧ ptr ≤ b.start ∧ b.start + len ≤ ptr + b.vec.length ∧ b.slice? = some (zeros len) := by
  unfold ABuf.new
  by_cases h : PowerOfTwo align
  · rw [if_pos h]
    refine ⟨by simp [h], ?_⟩
    intro b hb
    obtain rfl := Option.some.inj hb
    have hpos : 0 < align := by obtain ⟨k, rfl⟩ := h; exact Nat.two_pow_pos k
    have ho : (align - ptr % align) % align < align := Nat.mod_lt _ hpos
    have hm : ptr % align < align := Nat.mod_lt _ hpos
    refine ⟨?_, ?_, ?_, ?_⟩
    · show align ∣ ptr + (align - ptr % align) % align
      apply Nat.dvd_of_mod_eq_zero
      rw [Nat.add_mod_mod, Nat.add_mod]
      by_cases h0 : ptr % align = 0
      · rw [h0]; simp
      · rw [Nat.mod_eq_of_lt (a := align - ptr % align) (by omega), show ptr % align + (align - ptr % align) = align by omega,
          Nat.mod_self]
    · simp [ABuf.start]
    · simp only [ABuf.start, zeros_length]; omega
    · have hl : (align - ptr % align) % align + len ≤ (zeros (len + align)).length := by rw [zeros_length]; omega
      simp only [ABuf.slice?, if_pos hl]
      congr 1
      simp only [slice, zeros, List.drop_replicate, List.take_replicate]
      congr 1
      omega
  · rw [if_neg h]; simp [h]

/-- A 4096-aligned sector buffer at an odd address. -/
example : (ABuf.new 0x10010 512 4096).map (fun b => (b.start, b.offset)) = some (0x11000, 4080) := by decide

/-! ## C50 -/

structure PInv (addrs : List Nat) (es : List PEv) (p : Pool) : Prop where
  bufs : p.buffers = addrs.mapIdx fun i a => ⟨a, i⟩
  inUseLen : p.inUse.length = addrs.length
  avail : p.available.Nodup
  mem : ∀ i, i ∈ p.available ↔ p.inUse[i]? = some false
  out : (outstanding es).Nodup
  outMem : ∀ b, b ∈ outstanding es ↔ addrs[b.id]? = some b.addr ∧ p.inUse[b.id]? = some true
  len : p.available.length + (outstanding es).length = addrs.length

theorem outstanding_snoc (es : List PEv) (e : PEv) : outstanding (es ++ [e]) = (match e with
    | .got b => outstanding es ++ [b]
    | .none => outstanding es
    | .returned b => (outstanding es).erase b) := by
  simp [outstanding]; rfl

theorem bufs_get (addrs : List Nat) (i : Nat) (b : Buf) :
    (addrs.mapIdx fun i a => (⟨a, i⟩ : Buf))[i]? = some b ↔ addrs[i]? = some b.addr ∧ b.id = i := by
  rw [List.getElem?_mapIdx]
  cases h : addrs[i]? with
  | none => simp
  | some a =>
    simp only [Option.map_some, Option.some.injEq]
    constructor
    · rintro rfl; simp
    · rintro ⟨h1, h2⟩; cases b; simp_all

theorem PInv.new (addrs : List Nat) : PInv addrs [] (Pool.new addrs) where
  bufs := rfl
  inUseLen := by simp [Pool.new]
  avail := List.nodup_range
  mem := by intro i; simp [Pool.new, List.getElem?_replicate]
  out := List.nodup_nil
  outMem := by intro b; simp [outstanding, Pool.new, List.getElem?_replicate]
  len := by simp [outstanding, Pool.new]

/-- What `get` does in a state that satisfies the invariant. -/
theorem PInv.get {addrs : List Nat} {es : List PEv} {p : Pool} (h : PInv addrs es p) :
    (p.available = [] ∧ p.get = (p, .empty)) ∨
    ∃ i rest a, p.available = i :: rest ∧ addrs[i]? = some a ∧ p.inUse[i]? = some false ∧
      p.get = ({ p with available := rest, inUse := p.inUse.set i true }, .buf ⟨a, i⟩) := by
  unfold Pool.get
  cases ha : p.available with
  | nil => exact .inl ⟨rfl, rfl⟩
  | cons i rest =>
    right
    have hm : p.inUse[i]? = some false := (h.mem i).mp (by rw [ha]; exact List.mem_cons_self ..)
    have hi : i < p.inUse.length := by
      rw [List.getElem?_eq_some_iff] at hm; exact hm.1
    have hi' : i < addrs.length := h.inUseLen ▸ hi
    refine ⟨i, rest, addrs[i], rfl, List.getElem?_eq_getElem hi', hm, ?_⟩
    have hb : p.buffers[i]? = some ⟨addrs[i], i⟩ := by
      rw [h.bufs, bufs_get]; exact ⟨List.getElem?_eq_getElem hi', rfl⟩
    simp only [if_pos hi, hb]

theorem PInv.step {addrs : List Nat} {es : List PEv} {p p' : Pool} {e : PEv} (h : PInv addrs es p)
    (hs : Pool.Step p e p') : PInv addrs (es ++ [e]) p' := by
  cases hs with
  | @get p' b hg =>
    rcases h.get with ⟨_, h2⟩ | ⟨i, rest, a, ha, hadd, hu, h2⟩
    · rw [h2] at hg; simp at hg
    rw [h2] at hg
    simp only [Prod.mk.injEq, Got.buf.injEq] at hg
    obtain ⟨rfl, rfl⟩ := hg
    have hi : i < p.inUse.length := by rw [List.getElem?_eq_some_iff] at hu; exact hu.1
    have hnd := h.avail; rw [ha, List.nodup_cons] at hnd
    have hnot : (⟨a, i⟩ : Buf) ∉ outstanding es := by
      intro hm; have := ((h.outMem _).mp hm).2; simp only at this; rw [hu] at this; simp at this
    refine ⟨h.bufs, by simpa using h.inUseLen, hnd.2, ?_, ?_, ?_, ?_⟩
    · intro j
      have hj := h.mem j
      rw [ha, List.mem_cons] at hj
      show j ∈ rest ↔ (p.inUse.set i true)[j]? = some false
      by_cases hij : i = j
      · subst hij; rw [List.getElem?_set_self hi]; simp [hnd.1]
      · rw [List.getElem?_set_ne hij, ← hj]; simp [Ne.symm hij]
    · rw [outstanding_snoc]
      exact List.nodup_append.mpr ⟨h.out, List.nodup_singleton _, by
        intro x hx y hy; rw [List.mem_singleton] at hy; subst hy; rintro rfl; exact hnot hx⟩
    · intro b
      rw [outstanding_snoc]
      show b ∈ outstanding es ++ [⟨a, i⟩] ↔ addrs[b.id]? = some b.addr ∧ (p.inUse.set i true)[b.id]? = some true
      rw [List.mem_append, List.mem_singleton, h.outMem b]
      by_cases hij : i = b.id
      · rw [← hij, List.getElem?_set_self hi, hu, hadd]
        cases b with | mk ba bi =>
        simp only [Buf.mk.injEq] at hij ⊢
        subst hij
        simp [eq_comm]
      · rw [List.getElem?_set_ne hij]
        constructor
        · rintro (h' | rfl)
          · exact h'
          · exact absurd rfl hij
        · exact .inl
    · rw [outstanding_snoc]
      have := h.len; rw [ha] at this
      simp only [List.length_append, List.length_cons, List.length_nil] at this ⊢
      omega
  | @empty p' hg =>
    rcases h.get with ⟨_, h2⟩ | ⟨i, rest, a, ha, hadd, hu, h2⟩
    · rw [h2] at hg; simp only [Prod.mk.injEq, and_true] at hg; subst hg
      refine ⟨h.bufs, h.inUseLen, h.avail, h.mem, ?_, ?_, ?_⟩ <;> rw [outstanding_snoc]
      · exact h.out
      · exact h.outMem
      · exact h.len
    · rw [h2] at hg; simp at hg
  | @ret p' b hr =>
    unfold Pool.ret at hr
    split at hr
    · split at hr
      · split at hr
        · rename_i h1 h2 h3
          obtain rfl := Option.some.inj hr
          have hi : b.id < p.inUse.length := by rw [List.getElem?_eq_some_iff] at h2; exact h2.1
          have hadd : addrs[b.id]? = some b.addr := by
            rw [h.bufs, List.getElem?_mapIdx] at h3
            cases ha : addrs[b.id]? with
            | none => rw [ha] at h3; simp at h3
            | some a => rw [ha] at h3; simpa using h3
          have hin : b ∈ outstanding es := (h.outMem b).mpr ⟨hadd, h2⟩
          have hna : b.id ∉ p.available := by intro hm; have := (h.mem _).mp hm; rw [h2] at this; simp at this
          refine ⟨h.bufs, by simpa using h.inUseLen, ?_, ?_, ?_, ?_, ?_⟩
          · exact List.nodup_append.mpr ⟨h.avail, List.nodup_singleton _, by
              intro x hx y hy; rw [List.mem_singleton] at hy; subst hy; rintro rfl; exact hna hx⟩
          · intro j
            show j ∈ p.available ++ [b.id] ↔ (p.inUse.set b.id false)[j]? = some false
            rw [List.mem_append, List.mem_singleton]
            by_cases hij : b.id = j
            · subst hij; rw [List.getElem?_set_self hi]; simp
            · rw [List.getElem?_set_ne hij, ← h.mem j]; simp [Ne.symm hij]
          · rw [outstanding_snoc]; exact h.out.erase b
          · intro c
            rw [outstanding_snoc]
            show c ∈ (outstanding es).erase b ↔ addrs[c.id]? = some c.addr ∧ (p.inUse.set b.id false)[c.id]? = some true
            rw [h.out.mem_erase_iff, h.outMem c]
            by_cases hij : b.id = c.id
            · rw [← hij, List.getElem?_set_self hi, hadd, h2]
              constructor
              · rintro ⟨hne, hc, _⟩
                exact absurd (by cases b; cases c; simp_all) hne
              · rintro ⟨_, hc⟩; simp at hc
            · rw [List.getElem?_set_ne hij]
              constructor
              · rintro ⟨_, h'⟩; exact h'
              · intro h'; exact ⟨fun hc => hij (by rw [hc]), h'⟩
          · rw [outstanding_snoc]
            show (p.available ++ [b.id]).length + ((outstanding es).erase b).length = addrs.length
            rw [List.length_erase_of_mem hin]
            have := h.len
            have : 0 < (outstanding es).length := List.length_pos_of_mem hin
            simp only [List.length_append, List.length_cons, List.length_nil]
            omega
        · simp at hr
      · simp at hr
    · simp at hr

theorem PInv.run {addrs : List Nat} {es : List PEv} {p : Pool} (h : Pool.Run addrs es p) : PInv addrs es p := by
  induction h with
  | new => exact .new addrs
  | step _ hs ih => exact ih.step hs

/-- C50, after any history of a pool whose buffers are distinct allocations: no allocation is out twice, only buffers
of the pool are out, and at most all of them. -/
theorem C50_outstanding {addrs : List Nat} (hd : addrs.Nodup) {es : List PEv} {p : Pool} (h : Pool.Run addrs es p) :
    ((outstanding es).map Buf.addr).Nodup ∧ (∀ b ∈ outstanding es, addrs[b.id]? = some b.addr) ∧
    (outstanding es).length ≤ addrs.length := by
  have i := PInv.run h
  refine ⟨?_, fun b hb => ((i.outMem b).mp hb).1, by have := i.len; omega⟩
  refine List.Nodup.map_on ?_ i.out
  intro b hb c hc hbc
  have h1 := ((i.outMem b).mp hb).1
  have h2 := ((i.outMem c).mp hc).1
  rw [List.getElem?_eq_some_iff] at h1 h2
  obtain ⟨l1, e1⟩ := h1
  obtain ⟨l2, e2⟩ := h2
  have : b.id = c.id := (List.Nodup.getElem_inj_iff hd).mp (by rw [e1, e2, hbc])
  cases b; cases c; simp_all

/-- C50, asking for a buffer after any history: a buffer is handed out iff not all are out (and iff the pool says it
has one), it is one of the pool's and not out already, and nothing panics. -/
theorem C50_get {addrs : List Nat} {es : List PEv} {p : Pool} (h : Pool.Run addrs es p) :
    ((outstanding es).length = addrs.length ∧ p.get.2 = .empty ∧ p.hasAvailable = false) ∨
    ((outstanding es).length < addrs.length ∧ p.hasAvailable = true ∧
      ∃ b, p.get.2 = .buf b ∧ b ∉ outstanding es ∧ addrs[b.id]? = some b.addr) := by
  have i := PInv.run h
  rcases i.get with ⟨ha, hg⟩ | ⟨j, rest, a, ha, hadd, hu, hg⟩
  · left
    have := i.len; rw [ha] at this
    refine ⟨by simpa using this, by rw [hg], by simp [Pool.hasAvailable, ha]⟩
  · right
    have := i.len; rw [ha] at this
    refine ⟨by simp at this; omega, by simp [Pool.hasAvailable, ha], ⟨a, j⟩, by rw [hg], ?_, hadd⟩
    intro hm
    have := ((i.outMem _).mp hm).2
    simp only at this; rw [hu] at this; simp at this

/-- C50, giving a buffer back after any history: it is accepted iff it is one the pool handed out and did not get
back since; anything else is refused. -/
theorem C50_return {addrs : List Nat} {es : List PEv} {p : Pool} (h : Pool.Run addrs es p) (b : Buf) :
    (∃ p', p.ret b = some p') ↔ b ∈ outstanding es := by
  have i := PInv.run h
  constructor
  · rintro ⟨p', hr⟩
    unfold Pool.ret at hr
    split at hr
    · split at hr
      · split at hr
        · rename_i h1 h2 h3
          rw [i.outMem]
          refine ⟨?_, h2⟩
          rw [i.bufs, List.getElem?_mapIdx] at h3
          cases ha : addrs[b.id]? with
          | none => rw [ha] at h3; simp at h3
          | some a => rw [ha] at h3; simpa using h3
        · simp at hr
      · simp at hr
    · simp at hr
  · intro hm
    obtain ⟨h1, h2⟩ := (i.outMem b).mp hm
    have hl : b.id < p.buffers.length := by
      rw [i.bufs, List.length_mapIdx]; rw [List.getElem?_eq_some_iff] at h1; exact h1.1
    have h3 : (p.buffers[b.id]?).map Buf.addr = some b.addr := by
      rw [i.bufs, List.getElem?_mapIdx, h1]; rfl
    unfold Pool.ret
    rw [if_pos hl, if_pos h2, if_pos h3]
    exact ⟨_, rfl⟩

/-- Two buffers, both taken, one returned and taken again. -/
def demoPool : Pool := { buffers := [⟨100, 0⟩, ⟨200, 1⟩], available := [], inUse := [true, true] }

theorem demoPool_run : Pool.Run [100, 200]
    [.got ⟨100, 0⟩, .got ⟨200, 1⟩, .none, .returned ⟨100, 0⟩, .got ⟨100, 0⟩] demoPool := by
  have h := Pool.Run.new (addrs := [100, 200])
  have h := h.step (.get (b := ⟨100, 0⟩) rfl)
  have h := h.step (.get (b := ⟨200, 1⟩) rfl)
  have h := h.step (.empty rfl)
  have h := h.step (.ret (b := ⟨100, 0⟩) rfl)
  exact h.step (.get (b := ⟨100, 0⟩) rfl)

example : outstanding [.got ⟨100, 0⟩, .got ⟨200, 1⟩, .none, .returned ⟨100, 0⟩, .got ⟨100, 0⟩] =
    [⟨200, 1⟩, ⟨100, 0⟩] := by decide
example : demoPool.get.2 = .empty := rfl
/-- A foreign buffer that carries the id of one that is out is refused. -/
example : demoPool.ret ⟨300, 1⟩ = none := rfl

/-! ## C52 -/

theorem fields_plain {a : List Char} (ha : ',' ∉ a) : fields a = [a] := by
  induction a with
  | nil => rfl
  | cons c cs ih =>
    rw [List.mem_cons, not_or] at ha
    simp only [fields, if_neg (Ne.symm ha.1), ih ha.2]

theorem fields_cons {a b : List Char} (ha : ',' ∉ a) : fields (a ++ ',' :: b) = a :: fields b := by
  induction a with
  | nil => simp [fields]
  | cons c cs ih =>
    rw [List.mem_cons, not_or] at ha
    simp only [List.cons_append, fields, if_neg (Ne.symm ha.1), ih ha.2]

theorem digit_not {c : Char} {n : Nat} (hc : c.isDigit = false) : c ∉ decimal n := by
  intro h
  have := Nat.isDigit_of_mem_toDigits (by omega) (by omega) h
  rw [hc] at this; simp at this

theorem number_decimal (n : Nat) : number (decimal n) = n := Nat.ofDigitChars_ten_toDigits

theorem decimal_ne_nil (n : Nat) : decimal n ≠ [] := by
  have := Nat.length_toDigits_pos (b := 10) (n := n)
  intro h
  have h' : Nat.toDigits 10 n = [] := h
  rw [h'] at this; simp at this

theorem item_one (n : Nat) : itemNumbers (decimal n) = [n] := by
  have h : ∀ c ∈ decimal n, (decide (c ≠ '-')) = true := by
    intro c hc; simp only [decide_eq_true_eq]; rintro rfl; exact digit_not (by decide) hc
  unfold itemNumbers
  have hd : (decimal n).dropWhile (fun c => decide (c ≠ '-')) = [] := by
    simpa using List.dropWhile_append_of_pos (l₂ := []) h
  have ht : (decimal n).takeWhile (fun c => decide (c ≠ '-')) = decimal n := by
    simpa using List.takeWhile_append_of_pos (l₂ := []) h
  simp only [hd, ht, if_neg (decimal_ne_nil n), number_decimal]

theorem item_range (a b : Nat) :
    itemNumbers (decimal a ++ '-' :: decimal b) = (List.range (b + 1 - a)).map (a + ·) := by
  have h : ∀ c ∈ decimal a, (decide (c ≠ '-')) = true := by
    intro c hc; simp only [decide_eq_true_eq]; rintro rfl; exact digit_not (by decide) hc
  unfold itemNumbers
  have hd : (decimal a ++ '-' :: decimal b).dropWhile (fun c => decide (c ≠ '-')) = '-' :: decimal b := by
    rw [List.dropWhile_append_of_pos h]; simp
  have ht : (decimal a ++ '-' :: decimal b).takeWhile (fun c => decide (c ≠ '-')) = decimal a := by
    rw [List.takeWhile_append_of_pos h]; simp
  simp only [hd, ht, number_decimal]

/-- An item as the printer makes it: digits and dashes. -/
def Clean (s : List Char) : Prop := ',' ∉ s ∧ ' ' ∉ s

theorem pushRange_clean (a b : Nat) : ∀ s ∈ pushRange a b, Clean s := by
  have h1 : ∀ n, Clean (decimal n) := fun n => ⟨digit_not (by decide), digit_not (by decide)⟩
  intro s hs
  unfold pushRange at hs
  split at hs
  · rw [List.mem_singleton] at hs; subst hs; exact h1 a
  · simp only [List.mem_cons, List.not_mem_nil, or_false] at hs
    rcases hs with rfl | rfl
    · exact h1 a
    · exact h1 b
  · rw [List.mem_singleton] at hs; subst hs
    simp only [Clean, List.mem_append, List.mem_cons, not_or]
    exact ⟨⟨(h1 a).1, by decide, (h1 b).1⟩, ⟨(h1 a).2, by decide, (h1 b).2⟩⟩

theorem pushRange_numbers {a b : Nat} (h : a ≤ b) :
    (pushRange a b).flatMap itemNumbers = (List.range (b + 1 - a)).map (a + ·) := by
  unfold pushRange
  split
  · rename_i h0
    have : b = a := by omega
    subst this
    simp [item_one, List.range_succ]
  · rename_i h1
    have : b = a + 1 := by omega
    subst this
    simp [item_one, show a + 1 + 1 - a = 2 by omega, List.range_succ]
  · simp [item_range]

theorem formatLoop_clean (vs : List Nat) : ∀ a b, ∀ s ∈ formatLoop a b vs, Clean s := by
  induction vs with
  | nil => exact pushRange_clean
  | cons v vs ih =>
    intro a b s hs
    unfold formatLoop at hs
    split at hs
    · exact ih _ _ s hs
    · rcases List.mem_append.mp hs with h | h
      · exact pushRange_clean a b s h
      · exact ih _ _ s h

theorem formatLoop_numbers (vs : List Nat) : ∀ a b, a ≤ b →
    (formatLoop a b vs).flatMap itemNumbers = (List.range (b + 1 - a)).map (a + ·) ++ vs := by
  induction vs with
  | nil => intro a b h; rw [formatLoop, pushRange_numbers h, List.append_nil]
  | cons v vs ih =>
    intro a b h
    unfold formatLoop
    split
    · rename_i hv
      subst hv
      rw [ih _ _ (by omega), show b + 1 + 1 - a = (b + 1 - a) + 1 by omega, List.range_succ]
      simp [show a + (b + 1 - a) = b + 1 by omega]
    · rw [List.flatMap_append, pushRange_numbers h, ih _ _ (Nat.le_refl v)]
      simp [List.range_succ, show v + 1 - v = 1 by omega]

theorem dropSpace_clean {s : List Char} (h : Clean s) : s.dropWhile (fun c => decide (c = ' ')) = s := by
  cases s with
  | nil => rfl
  | cons c cs =>
    have : ' ' ≠ c := by intro hc; exact h.2 (by rw [hc]; exact List.mem_cons_self ..)
    simp [Ne.symm this]

theorem read_join {l : List (List Char)} (hc : ∀ s ∈ l, Clean s) (hne : l ≠ []) :
    readList (joinItems l) = l.flatMap itemNumbers ∧ readList (' ' :: joinItems l) = l.flatMap itemNumbers := by
  induction l with
  | nil => exact absurd rfl hne
  | cons x r ih =>
    have hx := hc x (List.mem_cons_self ..)
    have hsp : ',' ∉ ' ' :: x := by simp [hx.1]
    cases r with
    | nil =>
      simp only [joinItems, readList, fields_plain hx.1, fields_plain hsp]
      simp [dropSpace_clean hx]
    | cons y r =>
      have ih := ih (fun s hs => hc s (List.mem_cons_of_mem _ hs)) (by simp)
      unfold readList at ih ⊢
      rw [joinItems, ← List.cons_append, fields_cons hx.1, fields_cons hsp]
      simp only [List.flatMap_cons, ih.2, dropSpace_clean hx, List.dropWhile_cons, decide_true, if_true, and_self]

/-- C52: the text printed for a list of numbers stands for exactly that list. -/
theorem C52_reads_back (l : List Nat) : readList (formatList l) = l := by
  cases l with
  | nil => decide
  | cons v vs =>
    have hne : formatLoop v v vs ≠ [] := by
      intro h
      have := formatLoop_numbers vs v v (Nat.le_refl v)
      rw [h, show v + 1 - v = 1 by omega] at this
      simp [List.range_succ] at this
    rw [formatList, (read_join (formatLoop_clean vs v v) hne).1, formatLoop_numbers vs v v (Nat.le_refl v),
      show v + 1 - v = 1 by omega]
    simp [List.range_succ]

theorem has_bit : ∀ h : UInt8, (decide (h &&& Metadata.FETCHED ≠ 0) = (Remote.flagsOf h).fetched) ∧
    (decide (h &&& Metadata.WRITTEN ≠ 0) = (Remote.flagsOf h).written) ∧
    (decide (h &&& Metadata.HAS_SOURCE ≠ 0) = (Remote.flagsOf h).hasSource) := by
  have key : ∀ h : Fin 256, (decide (UInt8.ofNat h.1 &&& Metadata.FETCHED ≠ 0) = (Remote.flagsOf (UInt8.ofNat h.1)).fetched) ∧
    (decide (UInt8.ofNat h.1 &&& Metadata.WRITTEN ≠ 0) = (Remote.flagsOf (UInt8.ofNat h.1)).written) ∧
    (decide (UInt8.ofNat h.1 &&& Metadata.HAS_SOURCE ≠ 0) = (Remote.flagsOf (UInt8.ofNat h.1)).hasSource) := by
    decide +kernel
  intro h
  have := key ⟨h.toNat, h.toNat_lt⟩
  simpa using this

theorem mem_indices (flag : UInt8) (f : UInt8 → Bool) (hf : ∀ h : UInt8, decide (h &&& flag ≠ 0) = f h) (hs : List UInt8)
    (k : Nat) : k ∈ indicesWith flag hs ↔ ∃ h, hs[k]? = some h ∧ f h = true := by
  simp only [indicesWith, List.mem_filter, List.mem_range, hf]
  constructor
  · rintro ⟨h1, h2⟩
    exact ⟨hs[k], List.getElem?_eq_getElem h1, by simpa [List.getD_eq_getElem?_getD, h1] using h2⟩
  · rintro ⟨h, h1, h2⟩
    have := (List.getElem?_eq_some_iff.mp h1).1
    exact ⟨this, by simpa [List.getD_eq_getElem?_getD, h1] using h2⟩

/-- C52, the three lines of the dump: each stands for exactly the stripes that have the flag, in ascending order. -/
theorem C52_lines (hs : List UInt8) :
    ((dumpLists hs).1 |> readList).Pairwise (· < ·) ∧ ((dumpLists hs).2.1 |> readList).Pairwise (· < ·) ∧
    ((dumpLists hs).2.2 |> readList).Pairwise (· < ·) ∧
    ∀ k, (k ∈ readList (dumpLists hs).1 ↔ ∃ h, hs[k]? = some h ∧ (Remote.flagsOf h).fetched = true) ∧
      (k ∈ readList (dumpLists hs).2.1 ↔ ∃ h, hs[k]? = some h ∧ (Remote.flagsOf h).written = true) ∧
      (k ∈ readList (dumpLists hs).2.2 ↔ ∃ h, hs[k]? = some h ∧ (Remote.flagsOf h).hasSource = true) := by
  have hp : ∀ flag, (indicesWith flag hs).Pairwise (· < ·) := fun flag => List.pairwise_lt_range.filter _
  simp only [dumpLists, C52_reads_back]
  exact ⟨hp _, hp _, hp _, fun k => ⟨mem_indices _ _ (fun h => (has_bit h).1) hs k,
    mem_indices _ _ (fun h => (has_bit h).2.1) hs k, mem_indices _ _ (fun h => (has_bit h).2.2) hs k⟩⟩

/-- A volume of nine stripes. -/
example : dumpLists [5, 7, 5, 5, 0, 1, 3, 0, 4] =
    ("0-3, 5, 6".toList, "1, 6".toList, "0-3, 8".toList) := by decide +kernel

end Verif.Tools
