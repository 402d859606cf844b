import Verif.Model.Lend

/-! # Proofs about memory lent to the kernel: the ledger, and one invariant per user -/

namespace Verif.Lend

/-! ## The ledger step by step -/

def run (k : Ledger) (es : List Ev) : Ledger := es.foldl Ledger.next k

@[simp] theorem run_nil (k : Ledger) : run k [] = k := rfl
@[simp] theorem run_cons (k : Ledger) (e : Ev) (es : List Ev) : run k (e :: es) = run (k.next e) es := rfl
@[simp] theorem run_append (k : Ledger) (a b : List Ev) : run k (a ++ b) = run (run k a) b := by simp [run]

theorem ledger_eq (tr : List Ev) : ledger tr = run .empty tr := rfl

def Fine : Ledger → List Ev → Prop
  | _, [] => True
  | k, e :: es => k.allows e ∧ Fine (k.next e) es

@[simp] theorem fine_nil (k : Ledger) : Fine k [] := trivial
@[simp] theorem fine_cons (k : Ledger) (e : Ev) (es : List Ev) : Fine k (e :: es) ↔ k.allows e ∧ Fine (k.next e) es := Iff.rfl

@[simp] theorem fine_append (k : Ledger) (a b : List Ev) : Fine k (a ++ b) ↔ Fine k a ∧ Fine (run k a) b := by
  induction a generalizing k with
  | nil => simp
  | cons e a ih => simp [ih, and_assoc]

theorem fine_iff (k : Ledger) (tr : List Ev) :
    Fine k tr ↔ ∀ pre e post, tr = pre ++ e :: post → (run k pre).allows e := by
  induction tr generalizing k with
  | nil => simp
  | cons x tr ih =>
    rw [fine_cons, ih]
    constructor
    · rintro ⟨h1, h2⟩ pre e post h
      cases pre with
      | nil => simp only [List.nil_append, List.cons.injEq] at h; rw [← h.1]; exact h1
      | cons y pre =>
        simp only [List.cons_append, List.cons.injEq] at h
        rw [← h.1]; exact h2 pre e post h.2
    · intro h
      exact ⟨h [] x tr rfl, fun pre e post he => h (x :: pre) e post (by rw [he]; rfl)⟩

theorem keeps_iff (tr : List Ev) : Keeps tr ↔ Fine .empty tr := (fine_iff .empty tr).symm

def Ledger.law (k : Ledger) : Ev → Prop
  | .poll c rs => (rs.map Prod.fst).Nodup ∧ ∀ r ∈ rs, k.lent c r.1 ≠ none
  | _ => True

def Law : Ledger → List Ev → Prop
  | _, [] => True
  | k, e :: es => k.law e ∧ Law (k.next e) es

@[simp] theorem law_nil (k : Ledger) : Law k [] := trivial
@[simp] theorem law_cons (k : Ledger) (e : Ev) (es : List Ev) : Law k (e :: es) ↔ k.law e ∧ Law (k.next e) es := Iff.rfl

@[simp] theorem law_append (k : Ledger) (a b : List Ev) : Law k (a ++ b) ↔ Law k a ∧ Law (run k a) b := by
  induction a generalizing k with
  | nil => simp
  | cons e a ih => simp [ih, and_assoc]

theorem law_iff (k : Ledger) (tr : List Ev) :
    Law k tr ↔ ∀ pre c rs post, tr = pre ++ .poll c rs :: post →
      (rs.map Prod.fst).Nodup ∧ ∀ r ∈ rs, (run k pre).lent c r.1 ≠ none := by
  induction tr generalizing k with
  | nil => simp
  | cons x tr ih =>
    rw [law_cons, ih]
    constructor
    · rintro ⟨h1, h2⟩ pre c rs post h
      cases pre with
      | nil => simp only [List.nil_append, List.cons.injEq] at h; rw [h.1] at h1; exact h1
      | cons y pre =>
        simp only [List.cons_append, List.cons.injEq] at h
        rw [← h.1]; exact h2 pre c rs post h.2
    · intro h
      refine ⟨?_, fun pre c rs post he => h (x :: pre) c rs post (by rw [he]; rfl)⟩
      cases x with
      | poll c rs => exact h [] c rs tr rfl
      | _ => trivial

theorem answers_iff (tr : List Ev) : Answers tr ↔ Law .empty tr := (law_iff .empty tr).symm

/-- Invariants of a user, step by step. -/
theorem run_keeps {S : Type} {step : S → List Ev → S → Prop} {tr0 : List Ev} {s0 : S} (Inv : S → Ledger → Prop)
    (h0 : Fine .empty tr0) (h1 : Inv s0 (ledger tr0))
    (hs : ∀ s es s' k, Inv s k → step s es s' → Law k es → Fine k es ∧ Inv s' (run k es))
    {tr : List Ev} {s : S} (h : Run step tr0 s0 tr s) (ha : Answers tr) : Keeps tr ∧ Inv s (ledger tr) := by
  rw [keeps_iff, ledger_eq]; rw [answers_iff] at ha
  induction h with
  | nil => exact ⟨h0, h1⟩
  | snoc hr st ih =>
    rw [law_append] at ha
    obtain ⟨i1, i2⟩ := ih ha.1
    have := hs _ _ _ _ i2 st ha.2
    exact ⟨(fine_append ..).mpr ⟨i1, this.1⟩, by rw [run_append]; exact this.2⟩

/-! ## Allocating and freeing -/

theorem allocs_run (k : Ledger) (n size : Nat) :
    run k (allocs n size) = { k with size := fun b => if b < n then some size else k.size b } := by
  induction n with
  | zero => simp [allocs]
  | succ n ih =>
    have : allocs (n + 1) size = allocs n size ++ [.alloc n size] := by simp [allocs, List.range_succ]
    rw [this, run_append, ih]
    simp only [run_cons, run_nil, Ledger.next]
    congr 1
    funext b
    by_cases h : b = n
    · subst h; simp
    · simp only [h, if_false]
      by_cases hb : b < n
      · simp [hb, Nat.lt_succ_of_lt hb]
      · have : ¬ b < n + 1 := by omega
        simp [hb, this]

theorem allocs_fine (k : Ledger) (n size : Nat) (h : ∀ b, b < n → k.size b = none) : Fine k (allocs n size) := by
  induction n with
  | zero => simp [allocs]
  | succ n ih =>
    have : allocs (n + 1) size = allocs n size ++ [.alloc n size] := by simp [allocs, List.range_succ]
    rw [this, fine_append]
    refine ⟨ih fun b hb => h b (by omega), ?_⟩
    rw [allocs_run]
    simp [Ledger.allows, h n (by omega)]

theorem frees_fine (k : Ledger) (l : List Nat) (hn : l.Nodup) (hs : ∀ b ∈ l, k.size b ≠ none) (hq : ∀ b ∈ l, k.quiet b) :
    Fine k (l.map .free) := by
  induction l generalizing k with
  | nil => simp
  | cons b l ih =>
    rw [List.nodup_cons] at hn
    refine ⟨⟨hs b (by simp), hq b (by simp)⟩, ih _ hn.2 ?_ ?_⟩
    · intro x hx
      have : x ≠ b := fun h => hn.1 (h ▸ hx)
      simpa [Ledger.next, this] using hs x (by simp [hx])
    · intro x hx c id len; exact hq x (by simp [hx]) c id len

theorem touches_run (k : Ledger) (b n : Nat) : run k (List.replicate n (.touch b)) = k := by
  induction n with
  | zero => rfl
  | succ n ih => rw [List.replicate_succ, run_cons]; exact ih

theorem touches_fine (k : Ledger) (b n : Nat) (h : k.allows (.touch b)) : Fine k (List.replicate n (.touch b)) := by
  induction n with
  | zero => trivial
  | succ n ih => rw [List.replicate_succ]; exact ⟨h, ih⟩

/-! ## What holds whenever the program keeps to it -/

structure Sound (k : Ledger) : Prop where
  size : ∀ c id b len, k.lent c id = some (some (b, len)) → ∃ n, k.size b = some n ∧ len ≤ n
  once : ∀ c id len c' id' len' b, k.lent c id = some (some (b, len)) → k.lent c' id' = some (some (b, len')) → c = c' ∧ id = id'

theorem Sound.next {k : Ledger} (h : Sound k) {e : Ev} (ha : k.allows e) : Sound (k.next e) := by
  cases e with
  | alloc b n =>
    refine ⟨fun c id x len hx => ?_, h.once⟩
    obtain ⟨m, hm, hl⟩ := h.size c id x len hx
    have : x ≠ b := by rintro rfl; rw [ha] at hm; cases hm
    exact ⟨m, by simp [Ledger.next, this, hm], hl⟩
  | free b =>
    refine ⟨fun c id x len hx => ?_, h.once⟩
    obtain ⟨m, hm, hl⟩ := h.size c id x len hx
    have : x ≠ b := by rintro rfl; exact ha.2 c id len hx
    exact ⟨m, by simp [Ledger.next, this, hm], hl⟩
  | touch b => exact h
  | kern c id => exact h
  | add c id w b len =>
    obtain ⟨⟨n, hn, hl⟩, hq, -⟩ := ha
    refine ⟨fun c' id' x len' hx => ?_, fun c1 i1 l1 c2 i2 l2 x h1 h2 => ?_⟩
    · simp only [Ledger.next] at hx ⊢
      split at hx
      · simp only [Option.some.injEq, Prod.mk.injEq] at hx; rw [← hx.1, ← hx.2]; exact ⟨n, hn, hl⟩
      · exact h.size c' id' x len' hx
    · simp only [Ledger.next] at h1 h2
      split at h1 <;> split at h2
      · rename_i a b'; exact ⟨a.1.trans b'.1.symm, a.2.trans b'.2.symm⟩
      · simp only [Option.some.injEq, Prod.mk.injEq] at h1; rw [← h1.1] at h2; exact absurd h2 (hq _ _ _)
      · simp only [Option.some.injEq, Prod.mk.injEq] at h2; rw [← h2.1] at h1; exact absurd h1 (hq _ _ _)
      · exact h.once _ _ _ _ _ _ _ h1 h2
  | flush c id =>
    refine ⟨fun c' id' x len' hx => ?_, fun c1 i1 l1 c2 i2 l2 x h1 h2 => ?_⟩
    · simp only [Ledger.next] at hx ⊢
      split at hx
      · cases hx
      · exact h.size c' id' x len' hx
    · simp only [Ledger.next] at h1 h2
      split at h1
      · cases h1
      · split at h2
        · cases h2
        · exact h.once _ _ _ _ _ _ _ h1 h2
  | poll c rs =>
    refine ⟨fun c' id' x len' hx => ?_, fun c1 i1 l1 c2 i2 l2 x h1 h2 => ?_⟩
    · simp only [Ledger.next] at hx ⊢
      split at hx
      · cases hx
      · exact h.size c' id' x len' hx
    · simp only [Ledger.next] at h1 h2
      split at h1
      · cases h1
      · split at h2
        · cases h2
        · exact h.once _ _ _ _ _ _ _ h1 h2

theorem Sound.run {k : Ledger} (h : Sound k) {es : List Ev} (hf : Fine k es) : Sound (run k es) := by
  induction es generalizing k with
  | nil => exact h
  | cons e es ih => exact ih (h.next hf.1) hf.2

theorem Sound.empty : Sound .empty := ⟨fun _ _ _ _ h => (by cases h), fun _ _ _ _ _ _ _ h => (by cases h)⟩

theorem sound_of_keeps {tr : List Ev} (h : Keeps tr) : Sound (ledger tr) := Sound.empty.run ((keeps_iff tr).mp h)

theorem keeps_prefix {a b : List Ev} (h : Keeps (a ++ b)) : Keeps a := by
  rw [keeps_iff, fine_append] at h; rw [keeps_iff]; exact h.1

theorem sqeLen_le (n : Nat) : sqeLen n ≤ n * 512 := Nat.mod_le _ _

end Verif.Lend
