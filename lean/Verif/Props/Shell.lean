import Verif.Spec.Shell
import Verif.Props.Remote
import Verif.Proof.ArchiveFormat

/-! # C76: what the stripe shell shows is what the volume holds

`parseLine` reads a line, `exec` runs it. `Prompt s h σ`: a session with the server `s` in which replies arrive in time, with
history `h`; `Late` drops "in time" (Spec/Shell). -/

set_option maxRecDepth 8000

namespace Verif.Shell
open Verif Verif.Metadata Verif.Remote

/-! ## Lines -/

theorem words_word {ws : Char → Bool} {t r : Text} (ht : ∀ c ∈ t, ws c = false) :
    (t ++ r).foldr (wordStep ws) ([], []) = (t ++ (r.foldr (wordStep ws) ([], [])).1, (r.foldr (wordStep ws) ([], [])).2) := by
  induction t with
  | nil => rfl
  | cons c t ih =>
    rw [List.cons_append, List.foldr_cons, ih fun x hx => ht x (List.mem_cons_of_mem _ hx), wordStep,
      ht c List.mem_cons_self]
    rfl

theorem words_blank {ws : Char → Bool} {b r : Text} (hb : ∀ c ∈ b, ws c = true) : words ws (b ++ r) = words ws r := by
  induction b with
  | nil => rfl
  | cons c b ih =>
    rw [← ih fun x hx => hb x (List.mem_cons_of_mem _ hx)]
    simp only [words, List.cons_append, List.foldr_cons]
    have h1 : ws c = true := hb c List.mem_cons_self
    simp only [wordStep, h1, if_true]

theorem words_spaced {ws : Char → Bool} {ts : List Text} {l : Text} (h : Spaced ws ts l) : words ws l = ts := by
  induction h with
  | none b hb => simpa [words] using words_blank (ws := ws) (r := []) hb
  | word b t r ts hb ht0 ht _ hr ih =>
    rw [List.append_assoc, words_blank hb, words, words_word ht]
    have h1 : (r.foldr (wordStep ws) ([], [])).1 = [] := by
      cases r with
      | nil => rfl
      | cons c r => simp [List.foldr_cons, wordStep, hr c rfl]
    simp only [words] at ih
    rw [h1] at ih
    simp [h1, ht0, ← ih]

theorem spaced_blank {ws : Char → Bool} {ts : List Text} {l : Text} {c : Char} (hc : ws c = true) (h : Spaced ws ts l) :
    Spaced ws ts (c :: l) := by
  cases h with
  | none _ hb => exact .none _ (by simpa [hc] using hb)
  | word b t r ts hb h0 ht hr hh =>
    exact Spaced.word (c :: b) t r ts (by simpa [hc] using hb) h0 ht hr hh

theorem spaced_parts (ws : Char → Bool) (line : Text) : ∃ rest, line = (line.foldr (wordStep ws) ([], [])).1 ++ rest ∧
    (∀ c ∈ (line.foldr (wordStep ws) ([], [])).1, ws c = false) ∧ Spaced ws (line.foldr (wordStep ws) ([], [])).2 rest ∧
    ∀ c, rest.head? = some c → ws c = true := by
  induction line with
  | nil => exact ⟨[], rfl, by simp, .none _ (by simp), by simp⟩
  | cons c line ih =>
    obtain ⟨rest, h1, h2, h3, h4⟩ := ih
    simp only [List.foldr_cons]
    generalize line.foldr (wordStep ws) ([], []) = r at h1 h2 h3
    by_cases hc : ws c = true
    · refine ⟨c :: line, by simp [wordStep, hc], by simp [wordStep, hc], ?_, by simp [hc]⟩
      by_cases hr : r.1 = []
      · simp only [wordStep, hc, hr, if_true]
        rw [hr] at h1
        simp only [List.nil_append] at h1
        exact h1 ▸ spaced_blank hc h3
      · simp only [wordStep, hc, hr, if_true, if_false]
        rw [h1]
        exact Spaced.word [c] r.1 rest r.2 (by simpa using hc) hr h2 h3 h4
    · simp only [Bool.not_eq_true] at hc
      refine ⟨rest, by simpa [wordStep, hc] using h1, ?_, by simpa [wordStep, hc] using h3, h4⟩
      intro x hx
      rw [wordStep, hc] at hx
      rcases List.mem_cons.1 (by simpa using hx) with rfl | hx
      · exact hc
      · exact h2 x hx

theorem spaced_words (ws : Char → Bool) (line : Text) : Spaced ws (words ws line) line := by
  obtain ⟨rest, h1, h2, h3, h4⟩ := spaced_parts ws line
  simp only [words]
  generalize line.foldr (wordStep ws) ([], []) = r at h1 h2 h3
  split_ifs with hr
  · rw [hr] at h1
    exact h1 ▸ h3
  · conv => rhs; rw [h1]
    exact Spaced.word [] r.1 rest r.2 (by simp) hr h2 h3 h4

theorem digit_ofNat {d : Nat} (hd : d < 10) : digit (Char.ofNat (48 + d)) = some d := by
  have : ∀ d : Fin 10, digit (Char.ofNat (48 + d.val)) = some d.val := by decide
  exact this ⟨d, hd⟩

theorem foldl_ge (l : List Nat) : ∀ a : Nat, a ≤ l.foldl (fun a d => a * 10 + d) a := by
  induction l with
  | nil => intro a; exact le_refl _
  | cons x l ih => intro a; exact le_trans (by omega) (ih (a * 10 + x))

theorem digits_numeral (ds : List Nat) : ∀ (acc : Nat), acc < 2 ^ 64 → (∀ d ∈ ds, d < 10) →
    digits acc (ds.map fun d => Char.ofNat (48 + d)) =
      if (ds.foldl (fun a d => a * 10 + d) acc) < 2 ^ 64 then some (ds.foldl (fun a d => a * 10 + d) acc) else none := by
  induction ds with
  | nil => intro acc ha _; exact (if_pos ha).symm
  | cons d ds ih =>
    intro acc ha h
    have hm := foldl_ge ds (acc * 10 + d)
    have hd := digit_ofNat (h d List.mem_cons_self)
    by_cases h1 : acc * 10 + d < 2 ^ 64
    · have h2 := ih _ h1 fun x hx => h x (List.mem_cons_of_mem _ hx)
      simp only [List.map_cons, digits, hd]
      rw [if_pos h1, h2]
      rfl
    · simp only [List.map_cons, digits, hd]
      rw [if_neg h1]
      exact (if_neg (show ¬ ds.foldl (fun a d => a * 10 + d) (acc * 10 + d) < 2 ^ 64 by omega)).symm

theorem digits_some (t : Text) : ∀ (acc n : Nat), digits acc t = some n → ∃ ds : List Nat, (∀ d ∈ ds, d < 10) ∧
    t = ds.map (fun d => Char.ofNat (48 + d)) ∧ n = ds.foldl (fun a d => a * 10 + d) acc := by
  induction t with
  | nil => intro acc n h; exact ⟨[], by simp, rfl, by simpa [digits] using h.symm⟩
  | cons c t ih =>
    intro acc n h
    simp only [digits] at h
    split at h
    · cases h
    · rename_i d hd
      split at h
      · obtain ⟨ds, h1, h2, h3⟩ := ih _ _ h
        simp only [digit] at hd
        split at hd
        · rename_i hc
          simp only [Option.some.injEq] at hd
          refine ⟨d :: ds, ?_, ?_, h3⟩
          · intro x hx
            rcases List.mem_cons.1 hx with rfl | hx
            · omega
            · exact h1 x hx
          · rw [List.map_cons, ← h2, show 48 + d = c.toNat by omega, Char.ofNat_toNat]
        · cases hd
      · cases h

theorem ofDigits_foldl (ds : List Nat) : Nat.ofDigits 10 ds = ds.reverse.foldl (fun a d => a * 10 + d) 0 := by
  rw [List.foldl_reverse, Nat.ofDigits_eq_foldr]
  congr 1
  funext a b
  simp [Nat.mul_comm, Nat.add_comm]

theorem numeral_head {ds : List Nat} (hd : ∀ d ∈ ds, d < 10) (r : Text) : numeral ds ≠ '+' :: r := by
  intro h
  have h1 : '+' ∈ numeral ds := h ▸ List.mem_cons_self
  simp only [numeral, List.mem_map, List.mem_reverse] at h1
  obtain ⟨d, hm, h2⟩ := h1
  have : ∀ d : Fin 10, Char.ofNat (48 + d.val) ≠ '+' := by decide
  exact this ⟨d, hd d hm⟩ h2

/-- **C76** A number is read as what it says, whatever zeros or plus sign stand in front, and refused when it does not fit into 64
bits. -/
theorem C76_number (n : Nat) (t : Text) (h : Numeral n t) : number t = if n < 2 ^ 64 then some n else none := by
  obtain ⟨ds, h0, hd, rfl, ht⟩ := h
  have hne : numeral ds ≠ [] := by simpa [numeral] using h0
  have key : digits 0 (numeral ds) = if Nat.ofDigits 10 ds < 2 ^ 64 then some (Nat.ofDigits 10 ds) else none := by
    rw [numeral, digits_numeral _ _ (by decide) (by simpa using hd), ofDigits_foldl]
  have hu : unsign t = numeral ds := by
    rcases ht with rfl | rfl
    · unfold unsign
      split
      · rename_i r hr; exact absurd hr (numeral_head hd r)
      · rfl
    · rfl
  rw [number, hu, if_neg hne, key]

/-- **C76** Only numerals are taken for numbers: whatever is accepted is a numeral of the number read. -/
theorem C76_number_only (n : Nat) (t : Text) (h : number t = some n) : Numeral n t ∧ n < 2 ^ 64 := by
  have aux : ∀ r : Text, r ≠ [] → digits 0 r = some n → ∃ ds, ds ≠ [] ∧ (∀ d ∈ ds, d < 10) ∧ Nat.ofDigits 10 ds = n ∧ r = numeral ds := by
    intro r hr hd
    obtain ⟨ds, h1, h2, h3⟩ := digits_some _ _ _ hd
    refine ⟨ds.reverse, ?_, ?_, ?_, ?_⟩
    · rintro h; apply hr; rw [h2]; simpa using h
    · simpa using h1
    · rw [ofDigits_foldl, List.reverse_reverse, h3]
    · rw [numeral, List.reverse_reverse, h2]
  have hN : Numeral n t := by
    rw [number] at h
    by_cases hu : unsign t = []
    · rw [if_pos hu] at h; cases h
    · rw [if_neg hu] at h
      obtain ⟨ds, h1, h2, h3, h4⟩ := aux _ hu h
      refine ⟨ds, h1, h2, h3, ?_⟩
      unfold unsign at h4
      split at h4
      · exact .inr (by rw [h4])
      · exact .inl h4
  refine ⟨hN, ?_⟩
  rw [C76_number n t hN] at h
  by_contra hc
  rw [if_neg hc] at h
  cases h

example : Numeral 512 ['+', '0', '5', '1', '2'] ∧ number ['+', '0', '5', '1', '2'] = some 512 ∧ number ['-', '1'] = none := by
  refine ⟨⟨[2, 1, 5, 0], by decide, by decide, by decide, .inr (by decide)⟩, by decide, by decide⟩

/-! ## Commands -/

theorem arg_numeral {n : Nat} {t : Text} (h : Numeral n t) (hn : n < 2 ^ 64) : arg (some t) = .ok n := by
  simp only [arg, C76_number n t h]
  rw [if_pos hn]

/-- **C76** A line with a command and its arguments, blanks wherever they may stand, is read as that command with these arguments
in this order. -/
theorem C76_line (ws : Char → Bool) (line t₁ t₂ t₃ : Text) (more : List Text) (k off len : Nat)
    (h₁ : Numeral k t₁) (h₂ : Numeral off t₂) (h₃ : Numeral len t₃) (hk : k < 2 ^ 64) (ho : off < 2 ^ 64) (hl : len < 2 ^ 64) :
    (Spaced ws (dumpName :: t₁ :: t₂ :: t₃ :: more) line → parseLine ws line = .dump k off len) ∧
    (Spaced ws (fetchName :: t₁ :: more) line → parseLine ws line = .fetch k) ∧
    (Spaced ws (headerName :: t₁ :: more) line → parseLine ws line = .header k) ∧
    (Spaced ws (exitName :: more) line ∨ Spaced ws (quitName :: more) line → parseLine ws line = .quit) ∧
    (Spaced ws [] line → parseLine ws line = .say .nothing) := by
  have a1 := arg_numeral h₁ hk
  have a2 := arg_numeral h₂ ho
  have a3 := arg_numeral h₃ hl
  have n1 : ¬ (dumpName = exitName ∨ dumpName = quitName) := by decide
  have n2 : dumpName ≠ helpName := by decide
  have n3 : dumpName ≠ headerName := by decide
  have n4 : dumpName ≠ fetchName := by decide
  have m1 : ¬ (fetchName = exitName ∨ fetchName = quitName) := by decide
  have m2 : fetchName ≠ helpName := by decide
  have m3 : fetchName ≠ headerName := by decide
  have l1 : ¬ (headerName = exitName ∨ headerName = quitName) := by decide
  have l2 : headerName ≠ helpName := by decide
  refine ⟨fun h => ?_, fun h => ?_, fun h => ?_, fun h => ?_, fun h => ?_⟩
  · rw [parseLine, words_spaced h]
    simp only [command, if_neg n1, if_neg n2, if_neg n3, if_neg n4, if_true]
    simp [a1, a2, a3]
  · rw [parseLine, words_spaced h]
    simp only [command, if_neg m1, if_neg m2, if_neg m3, if_true]
    simp [a1]
  · rw [parseLine, words_spaced h]
    simp only [command, if_neg l1, if_neg l2, if_true]
    simp [a1]
  · rcases h with h | h <;> rw [parseLine, words_spaced h] <;> simp [command]
  · rw [parseLine, words_spaced h]

/-- **C76** Whatever the line, a stripe is asked for, shown or dumped only if the line names that command and gives numerals of
these numbers as its first arguments. -/
theorem C76_line_only (ws : Char → Bool) (line : Text) (k off len : Nat) :
    (parseLine ws line = .dump k off len → ∃ t₁ t₂ t₃ more, Spaced ws (dumpName :: t₁ :: t₂ :: t₃ :: more) line ∧
      Numeral k t₁ ∧ Numeral off t₂ ∧ Numeral len t₃ ∧ k < 2 ^ 64 ∧ off < 2 ^ 64 ∧ len < 2 ^ 64) ∧
    (parseLine ws line = .fetch k → ∃ t₁ more, Spaced ws (fetchName :: t₁ :: more) line ∧ Numeral k t₁ ∧ k < 2 ^ 64) := by
  have ha : ∀ (o : Option Text) (n : Nat), arg o = .ok n → ∃ t, o = some t ∧ Numeral n t ∧ n < 2 ^ 64 := by
    intro o n h
    cases o with
    | none => simp [arg] at h
    | some t =>
      simp only [arg] at h
      split at h
      · cases h
      · rename_i n' hn
        simp only [Except.ok.injEq] at h
        subst h
        exact ⟨t, rfl, C76_number_only _ _ hn⟩
  have hsp := spaced_words ws line
  unfold parseLine
  generalize words ws line = wl at hsp ⊢
  cases wl with
  | nil => simp
  | cons cmd rest =>
    simp only [command]
    constructor
    · intro h
      split_ifs at h with c1 c2 c3 c4 c5
      · split at h <;> cases h
      · split at h <;> cases h
      · split at h
        · rename_i k' off' len' e1 e2 e3
          simp only [Act.dump.injEq] at h
          obtain ⟨rfl, rfl, rfl⟩ := h
          obtain ⟨t1, r1, p1, q1⟩ := ha _ _ e1
          obtain ⟨t2, r2, p2, q2⟩ := ha _ _ e2
          obtain ⟨t3, r3, p3, q3⟩ := ha _ _ e3
          match rest, r1, r2, r3 with
          | a :: b :: c :: more, r1, r2, r3 =>
            simp only [List.getElem?_cons_zero, List.getElem?_cons_succ, Option.some.injEq] at r1 r2 r3
            subst r1 r2 r3
            exact ⟨a, b, c, more, c5 ▸ hsp, p1, p2, p3, q1, q2, q3⟩
        all_goals cases h
    · intro h
      split_ifs at h with c1 c2 c3 c4 c5
      · split at h <;> cases h
      · split at h
        · rename_i k' e1
          simp only [Act.fetch.injEq] at h
          subst h
          obtain ⟨t1, r1, p1, q1⟩ := ha _ _ e1
          match rest, r1 with
          | a :: more, r1 =>
            simp only [List.getElem?_cons_zero, Option.some.injEq] at r1
            subst r1
            exact ⟨a, more, c4 ▸ hsp, p1, q1⟩
        · cases h
      · split at h <;> cases h

/-- A line with odd blanks and signs. -/
example : parseLine (· == ' ') ([' '] ++ dumpName ++ [' ', ' ', '1', ' ', '+', '0', '2', ' ', '8', ' ', 'x']) = .dump 1 2 8 ∧
    Spaced (· == ' ') [dumpName, ['1'], ['2'], ['8']] (dumpName ++ [' ', '1', ' ', '2', ' ', ' ', '8', ' ']) := by
  refine ⟨by decide, ?_⟩
  have h0 : Spaced (· == ' ') [] [' '] := .none _ (by decide)
  have h1 := Spaced.word [' ', ' '] ['8'] _ _ (by decide) (by decide) (by decide) h0 (by decide)
  have h2 := Spaced.word [' '] ['2'] _ _ (by decide) (by decide) (by decide) h1 (by decide)
  have h3 := Spaced.word [' '] ['1'] _ _ (by decide) (by decide) (by decide) h2 (by decide)
  exact Spaced.word [] dumpName _ _ (by decide) (by decide) (by decide) h3 (by decide)

/-! ## Sessions in which replies arrive in time -/

theorem reply_cases {s : Srv} (hs : s.Sized) (hm : Saveable s.md) (i k : Nat) {cs : List Bytes}
    (hcs : cs.flatten = (s.handleRead i k).1) :
    ∃ cs', cs'.flatten = [] ∧
      (clientFetch (some s.md) cs = (clientView (s.volume.answer k), cs') ∧ (s.handleRead i k).2 = true ∨
       clientFetch (some s.md) cs = (clientView .serverError, cs') ∧ (s.handleRead i k).2 = false) := by
  rcases C31_failure s hs i k with ⟨hw, hg⟩ | ⟨hw, hg, -⟩
  · obtain ⟨cs', h1, h2⟩ := C30_fetch_decodes s.md hm (s.volume.answer k) _ [] hw (by
      unfold Volume.answer
      split
      · simp
      · split_ifs
        · simp
        · exact .inl ⟨_, rfl, stripe_length hs k⟩
        · simp) cs (by simpa using hcs)
    exact ⟨cs', h1, .inl ⟨h2, hg⟩⟩
  · obtain ⟨cs', h1, h2⟩ := C30_fetch_decodes s.md hm .serverError _ [] hw (by simp) cs (by simpa using hcs)
    exact ⟨cs', h1, .inr ⟨h2, hg⟩⟩

/-- What a session in time looks like from the inside. -/
def Kept (s : Srv) (h : List (Act × Out)) (σ : Sess) : Prop :=
  σ.st.inbox.flatten = [] ∧ ∀ k,
    (σ.st.kept k = none → (Act.fetch k, Out.fetched) ∉ h) ∧
    ∀ d, σ.st.kept k = some d → d = s.volume.stripe k ∧ s.volume.answer k = .data d

theorem view_ok {v : Volume} {k : Nat} {d : Bytes} (h : clientView (v.answer k) = .ok d) : d = v.stripe k ∧ v.answer k = .data d := by
  unfold Volume.answer at h ⊢
  split at h
  · cases h
  · split_ifs at h ⊢ <;> simp_all [clientView]

theorem fetch_step {s : Srv} (hs : s.Sized) (hm : Saveable s.md) {h : List (Act × Out)} {σ : Sess} (ih : Kept s h σ) {k : Nat}
    (hk : k < s.md.headers.length) {arrive : List Bytes} (ha : arrive.flatten = due s σ (.fetch k)) :
    ∃ cs', cs'.flatten = [] ∧
      (clientFetch (some s.md) (σ.st.inbox ++ arrive) = (clientView (s.volume.answer k), cs') ∧ σ.live = true ∧
          (s.handleRead σ.asked k).2 = true ∨
       clientFetch (some s.md) (σ.st.inbox ++ arrive) = (clientView .serverError, cs') ∧ σ.live = true ∧
          (s.handleRead σ.asked k).2 = false ∨
       clientFetch (some s.md) (σ.st.inbox ++ arrive) = (.error .io, cs') ∧ σ.live = false) := by
  have hw : wants s.md (.fetch k) = some k := by simp [wants]; omega
  cases hl : σ.live with
  | true =>
    have hfl : (σ.st.inbox ++ arrive).flatten = (s.handleRead σ.asked k).1 := by
      rw [List.flatten_append, ih.1, ha, due, hw]
      simp [hl]
    obtain ⟨cs', h1, h2⟩ := reply_cases hs hm σ.asked k hfl
    rcases h2 with ⟨h2, h3⟩ | ⟨h2, h3⟩
    · exact ⟨cs', h1, .inl ⟨h2, rfl, h3⟩⟩
    · exact ⟨cs', h1, .inr (.inl ⟨h2, rfl, h3⟩)⟩
  | false =>
    have hfl : (σ.st.inbox ++ arrive).flatten = [] := by
      rw [List.flatten_append, ih.1, ha, due, hw]
      simp [hl]
    have hr : readExact 1 (σ.st.inbox ++ arrive) = none := by
      generalize σ.st.inbox ++ arrive = cs at hfl
      induction cs with
      | nil => simp [readExact]
      | cons c cs ihc =>
        simp only [List.flatten_cons, List.append_eq_nil_iff] at hfl
        rw [hfl.1]
        simp [readExact, ihc hfl.2]
    exact ⟨[], rfl, .inr (.inr ⟨by simp [clientFetch, recv, hr], rfl⟩)⟩

theorem next_st (s : Srv) (σ : Sess) (a : Act) (arrive : List Bytes) :
    (σ.next s a arrive).st = (exec s.md σ.st a arrive).1 := by
  unfold Sess.next; split <;> rfl

theorem prompt_kept {s : Srv} (hs : s.Sized) (hm : Saveable s.md) {h : List (Act × Out)} {σ : Sess} (hp : Prompt s h σ) :
    Kept s h σ := by
  induction hp with
  | start => exact ⟨rfl, fun k => ⟨fun _ => by simp, fun d hd => by simp [St.init] at hd⟩⟩
  | @line h σ a arrive _ _ ha ih =>
    have quiet : wants s.md a = none → arrive.flatten = [] := fun hw => by rw [ha, due, hw]
    have same : wants s.md a = none → (∀ k, a ≠ .fetch k ∨ (exec s.md σ.st a arrive).2 ≠ .fetched) →
        (exec s.md σ.st a arrive).1.kept = σ.st.kept → (exec s.md σ.st a arrive).1.inbox = σ.st.inbox ++ arrive →
        Kept s (h ++ [(a, (exec s.md σ.st a arrive).2)]) (σ.next s a arrive) := by
      intro hw hne hk hi
      refine ⟨by rw [next_st, hi, List.flatten_append, ih.1, quiet hw]; rfl, fun k => ?_⟩
      rw [next_st, hk]
      refine ⟨fun h0 => ?_, (ih.2 k).2⟩
      intro hmem
      rcases List.mem_append.1 hmem with h1 | h1
      · exact (ih.2 k).1 h0 h1
      · simp only [List.mem_singleton, Prod.mk.injEq] at h1
        rcases hne k with h2 | h2
        · exact h2 h1.1.symm
        · exact h2 h1.2.symm
    cases a with
    | quit => exact same rfl (by simp) rfl rfl
    | say o => exact same rfl (by simp) rfl rfl
    | header k => exact same rfl (by simp) rfl rfl
    | dump k off len => exact same rfl (by simp) rfl rfl
    | fetch k =>
      by_cases hk : k ≥ s.md.headers.length
      · exact same (by simp [wants, hk]) (fun _ => .inr (by simp [exec, hk])) (by simp [exec, hk]) (by simp [exec, hk])
      · obtain ⟨cs', h0, hc⟩ := fetch_step hs hm ih (by omega) ha
        have bad : ∀ e, clientFetch (some s.md) (σ.st.inbox ++ arrive) = (.error e, cs') →
            Kept s (h ++ [(.fetch k, (exec s.md σ.st (.fetch k) arrive).2)]) (σ.next s (.fetch k) arrive) := by
          intro e he
          refine ⟨by rw [next_st]; simp [exec, hk, he, h0], fun k' => ?_⟩
          rw [next_st]
          simp only [exec, hk, he, if_false]
          refine ⟨fun hn hmem => ?_, (ih.2 k').2⟩
          rcases List.mem_append.1 hmem with h1 | h1
          · exact (ih.2 k').1 hn h1
          · simp at h1
        have good : ∀ d, clientFetch (some s.md) (σ.st.inbox ++ arrive) = (.ok d, cs') →
            d = s.volume.stripe k ∧ s.volume.answer k = .data d →
            Kept s (h ++ [(.fetch k, (exec s.md σ.st (.fetch k) arrive).2)]) (σ.next s (.fetch k) arrive) := by
          intro d he hd
          refine ⟨by rw [next_st]; simp [exec, hk, he, h0], fun k' => ?_⟩
          rw [next_st]
          simp only [exec, hk, he, if_false]
          by_cases hkk : k' = k
          · subst hkk
            simp only [Function.update_self]
            refine ⟨fun h => by simp at h, fun d' h => ?_⟩
            simp only [Option.some.injEq] at h
            exact h ▸ hd
          · rw [Function.update_of_ne hkk]
            refine ⟨fun hn hmem => ?_, (ih.2 k').2⟩
            rcases List.mem_append.1 hmem with h1 | h1
            · exact (ih.2 k').1 hn h1
            · simp only [List.mem_singleton, Prod.mk.injEq, Act.fetch.injEq] at h1
              exact hkk h1.1
        rcases hc with ⟨hc, -⟩ | ⟨hc, -⟩ | ⟨hc, -⟩
        · cases hv : clientView (s.volume.answer k) with
          | error e => exact bad e (by rw [hc, hv])
          | ok d => exact good d (by rw [hc, hv]) (view_ok hv)
        · exact bad _ hc
        · exact bad _ hc

theorem kept_of_fetched {s : Srv} (hs : s.Sized) (hm : Saveable s.md) {h : List (Act × Out)} {σ : Sess} (hp : Prompt s h σ) {k : Nat}
    (hf : (Act.fetch k, Out.fetched) ∈ h) : σ.st.kept k = some (s.volume.stripe k) := by
  have := (prompt_kept hs hm hp).2 k
  cases hk : σ.st.kept k with
  | none => exact absurd hf (this.1 hk)
  | some d => rw [(this.2 d hk).1]

theorem fetched_of_kept {s : Srv} {h : List (Act × Out)} {σ : Sess} (hp : Prompt s h σ) {k : Nat} {d : Bytes}
    (hk : σ.st.kept k = some d) : (Act.fetch k, Out.fetched) ∈ h := by
  induction hp with
  | start => simp [St.init] at hk
  | @line h σ a arrive _ _ ha ih =>
    rw [next_st] at hk
    cases a with
    | fetch k' =>
      simp only [exec] at hk ⊢
      split_ifs at hk with h1
      · exact List.mem_append_left _ (ih hk)
      · rw [if_neg h1]
        split at hk
        · rename_i data rest he
          by_cases hkk : k = k'
          · subst hkk
            simp
          · simp only [Function.update_of_ne hkk] at hk
            exact List.mem_append_left _ (ih hk)
        · exact List.mem_append_left _ (ih hk)
    | _ => exact List.mem_append_left _ (ih hk)

theorem has_written (h : UInt8) : has h WRITTEN = (flagsOf h).written := by
  have : ∀ n : Fin 256, has (UInt8.ofNat n.val) WRITTEN = (flagsOf (UInt8.ofNat n.val)).written := by decide +kernel
  have h1 := this ⟨h.toNat, h.toNat_lt⟩
  simpa using h1

theorem sat_gt {a b n : Nat} (hn : n < 2 ^ 64 - 1) : satAdd a b > n ↔ a + b > n := by
  unfold satAdd; omega

/-- **C76** In a session in which replies arrive in time: `dump_stripe` of a written stripe that has been fetched prints exactly the
bytes asked for of the stripe the volume holds, and refuses exactly the ranges that leave the stripe; of a written stripe that has
not been fetched it says so; and outside the volume it says so. -/
theorem C76_dump_partial (s : Srv) (hs : s.Sized) (hm : Saveable s.md) (h : List (Act × Out)) (σ : Sess) (hp : Prompt s h σ)
    (arrive : List Bytes) (k off len : Nat) :
    (s.volume.flags.length ≤ k → (exec s.md σ.st (.dump k off len) arrive).2 = .invalidStripe) ∧
    (∀ f, s.volume.flags[k]? = some f → f.written = true →
      ((Act.fetch k, Out.fetched) ∉ h → (exec s.md σ.st (.dump k off len) arrive).2 = .notFetched) ∧
      ((Act.fetch k, Out.fetched) ∈ h →
        (off + len ≤ (s.volume.stripe k).length →
          (exec s.md σ.st (.dump k off len) arrive).2 = .hex (Archive.hex (slice (s.volume.stripe k) off len))) ∧
        ((s.volume.stripe k).length < off + len → (exec s.md σ.st (.dump k off len) arrive).2 = .invalidRange))) := by
  have hsz : (s.volume.stripe k).length < 2 ^ 64 - 1 := by
    rw [stripe_length hs]
    have h1 := hm.2.2.2.1
    have : 2 ^ s.md.shift.toNat ≤ 2 ^ 17 := Nat.pow_le_pow_right (by decide) h1
    simp only [stripeSize, stripeSectorCount]
    omega
  refine ⟨fun hk => ?_, fun f hf hw => ⟨fun hn => ?_, fun hin => ?_⟩⟩
  · have : s.md.headers[k]? = none := by simpa [Srv.volume] using hk
    simp [exec, dump, this]
  all_goals
    have hfl : (s.md.headers[k]?).map flagsOf = some f := by simpa [Srv.volume] using hf
    cases hh : s.md.headers[k]? with
    | none => simp [hh] at hfl
    | some hd =>
      simp only [hh, Option.map_some, Option.some.injEq] at hfl
      have hW : has hd WRITTEN = true := by rw [has_written, hfl, hw]
      simp only [exec, dump, hh, hW, Bool.not_true, Bool.false_eq_true, if_false]
      first
      | cases hk : σ.st.kept k with
        | none => rfl
        | some d => exact absurd (fetched_of_kept hp hk) hn
      | rw [kept_of_fetched hs hm hp hin]
        refine ⟨fun hle => ?_, fun hlt => ?_⟩ <;> simp only []
        · rw [if_neg (by rw [sat_gt hsz]; omega), if_neg (by omega)]
          rfl
        · rw [if_pos (by rw [sat_gt hsz]; omega)]

/-- **C76** The text printed determines the bytes: two digits each, different bytes give different texts. -/
theorem C76_hex (a b : Bytes) (h : Archive.hex a = Archive.hex b) : a = b := Archive.hex_inj h

/-- What `fetch_stripe` should print for an answer. -/
def shown : Answer → Out
  | .data _ => .fetched
  | .noData => .failed .unavailable
  | .notFetched => .failed .unavailable
  | _ => .invalidStripe

/-- **C76** In a session in which replies arrive in time, `fetch_stripe` prints FETCHED exactly when the server has the stripe's data,
and otherwise what is wrong; outside the volume it says so and asks the server nothing. -/
theorem C76_fetch (s : Srv) (hs : s.Sized) (hm : Saveable s.md) (h : List (Act × Out)) (σ : Sess) (hp : Prompt s h σ)
    (arrive : List Bytes) (k : Nat) (ha : arrive.flatten = due s σ (.fetch k)) :
    (s.volume.flags.length ≤ k → (exec s.md σ.st (.fetch k) arrive).2 = .invalidStripe ∧ wants s.md (.fetch k) = none) ∧
    (k < s.volume.flags.length → wants s.md (.fetch k) = some k ∧
      (σ.live = true → s.devOk σ.asked = true → s.srcOk σ.asked = true →
        (exec s.md σ.st (.fetch k) arrive).2 = shown (s.volume.answer k)) ∧
      (σ.live = false → (exec s.md σ.st (.fetch k) arrive).2 = .failed .io)) ∧
    ((exec s.md σ.st (.fetch k) arrive).2 = .fetched → ∃ d, s.volume.answer k = .data d) := by
  have hl : s.volume.flags.length = s.md.headers.length := by simp [Srv.volume]
  have inr : k < s.volume.flags.length → ∃ f, s.volume.flags[k]? = some f := fun h => ⟨_, List.getElem?_eq_getElem h⟩
  rw [hl]
  refine ⟨fun hk => by simp [exec, wants, hk], fun hk => ?_, fun hf => ?_⟩
  · have hk' : ¬ k ≥ s.md.headers.length := by omega
    obtain ⟨cs', h0, hc⟩ := fetch_step hs hm (prompt_kept hs hm hp) hk ha
    obtain ⟨f, hf⟩ := inr (by omega)
    refine ⟨by simp [wants, hk], fun hv hd hi => ?_, fun hv => ?_⟩
    · have hgo := (C31_answer s hs σ.asked k hd hi).2
      rcases hc with ⟨hc, -, -⟩ | ⟨-, -, hg⟩ | ⟨-, hg⟩
      · simp only [exec, if_neg hk', hc]
        unfold Volume.answer
        rw [hf]
        simp only []
        split_ifs <;> rfl
      · rw [hgo] at hg; cases hg
      · rw [hv] at hg; cases hg
    · rcases hc with ⟨-, hg, -⟩ | ⟨-, hg, -⟩ | ⟨hc, -⟩
      · rw [hv] at hg; cases hg
      · rw [hv] at hg; cases hg
      · simp only [exec, if_neg hk', hc]
  · by_cases hk : k ≥ s.md.headers.length
    · simp [exec, hk] at hf
    · obtain ⟨cs', h0, hc⟩ := fetch_step hs hm (prompt_kept hs hm hp) (by omega) ha
      rcases hc with ⟨hc, -, -⟩ | ⟨hc, -, -⟩ | ⟨hc, -⟩
      · cases hv : clientView (s.volume.answer k) with
        | error e => simp [exec, hk, hc, hv] at hf
        | ok d => exact ⟨d, (view_ok hv).2⟩
      · simp [exec, hk, hc, clientView] at hf
      · simp [exec, hk, hc] at hf

/-- **C76** `stripe_header` shows the stripe's header byte and says WRITTEN exactly when the stripe is written. -/
theorem C76_header (s : Srv) (st : St) (arrive : List Bytes) (k : Nat) :
    (s.volume.flags.length ≤ k → (exec s.md st (.header k) arrive).2 = .invalidStripe) ∧
    ∀ f, s.volume.flags[k]? = some f → ∃ b, flagsOf b = f ∧ s.md.headers[k]? = some b ∧
      (exec s.md st (.header k) arrive).2 = .header b f.written := by
  refine ⟨fun hk => ?_, fun f hf => ?_⟩
  · have : s.md.headers[k]? = none := by simpa [Srv.volume] using hk
    simp [exec, showHeader, this]
  · have hfl : (s.md.headers[k]?).map flagsOf = some f := by simpa [Srv.volume] using hf
    cases hh : s.md.headers[k]? with
    | none => simp [hh] at hfl
    | some b =>
      simp only [hh, Option.map_some, Option.some.injEq] at hfl
      exact ⟨b, hfl, rfl, by simp [exec, showHeader, hh, has_written, hfl]⟩

/-- **C76** Of a stripe that has neither been written nor has a source (the server has no data for it), zeros are printed, as many as
asked for, if the range lies within a stripe. -/
theorem C76_empty (s : Srv) (hs : s.Sized) (hm : Saveable s.md) (st : St) (arrive : List Bytes) (k off len : Nat)
    (ha : s.volume.answer k = .noData) :
    (off + len ≤ (s.volume.stripe k).length → (exec s.md st (.dump k off len) arrive).2 = .hex (Archive.hex (List.replicate len 0))) ∧
    ((s.volume.stripe k).length < off + len → (exec s.md st (.dump k off len) arrive).2 = .invalidRange) := by
  have hsz : stripeSize s.md < 2 ^ 64 - 1 := by
    have : 2 ^ s.md.shift.toNat ≤ 2 ^ 17 := Nat.pow_le_pow_right (by decide) hm.2.2.2.1
    simp only [stripeSize, stripeSectorCount]
    omega
  rw [stripe_length hs]
  unfold Volume.answer at ha
  have hfl : s.volume.flags[k]? = (s.md.headers[k]?).map flagsOf := by simp [Srv.volume]
  rw [hfl] at ha
  cases hh : s.md.headers[k]? with
  | none => simp [hh] at ha
  | some b =>
    simp only [hh, Option.map_some] at ha
    split_ifs at ha with h1 h2
    have hW : has b WRITTEN = false := by rw [has_written]; simp_all
    simp only [exec, dump, hh, hW, Bool.not_false, if_true]
    refine ⟨fun hle => ?_, fun hlt => ?_⟩
    · rw [if_neg (by rw [sat_gt hsz]; omega)]
      rfl
    · rw [if_pos (by rw [sat_gt hsz]; omega)]

/-! ## Whatever arrives -/

/-- The states of the shell, whatever is typed and whatever arrives, and when. -/
inductive Reach (m : Meta) : St → Prop where
  | init : Reach m .init
  | line {st} (a : Act) (arrive : List Bytes) : Reach m st → Reach m (exec m st a arrive).1

theorem readExact_length {n : Nat} {cs : List Bytes} {b : Bytes} {r : List Bytes} (h : readExact n cs = some (b, r)) :
    b.length = n := by
  induction cs generalizing n b r with
  | nil =>
    cases n with
    | zero => simp [readExact] at h; simp [h.1]
    | succ n => simp [readExact] at h
  | cons c cs ih =>
    cases n with
    | zero => simp [readExact] at h; simp [h.1]
    | succ n =>
      rw [readExact] at h
      split_ifs at h with hc
      · simp only [Option.some.injEq, Prod.mk.injEq] at h
        rw [← h.1, List.length_take]
        omega
      · split at h
        · cases h
        · rename_i r' cs' hr
          simp only [Option.some.injEq, Prod.mk.injEq] at h
          rw [← h.1, List.length_append, ih hr]
          omega

theorem clientFetch_length {m : Meta} {cs : List Bytes} {d : Bytes} {r : List Bytes} (h : clientFetch (some m) cs = (.ok d, r)) :
    d.length = stripeSize m := by
  simp only [clientFetch, recv] at h
  split at h
  · cases h
  · split_ifs at h
    · split at h
      · cases h
      · split_ifs at h
        · cases h
        · split at h
          · cases h
          · rename_i b cs' hr
            simp only [Prod.mk.injEq, Except.ok.injEq] at h
            rw [← h.1]
            exact readExact_length hr
    all_goals cases h

theorem reach_sized {m : Meta} {st : St} (h : Reach m st) : ∀ k d, st.kept k = some d → d.length = stripeSize m := by
  induction h with
  | init => intro k d h; simp [St.init] at h
  | @line st a arrive _ ih =>
    intro k d h
    cases a with
    | fetch k' =>
      simp only [exec] at h
      split_ifs at h
      · exact ih k d h
      · split at h
        · rename_i data rest he
          by_cases hkk : k = k'
          · subst hkk
            simp only [Function.update_self, Option.some.injEq] at h
            exact h ▸ clientFetch_length he
          · simp only [Function.update_of_ne hkk] at h
            exact ih k d h
        · exact ih k d h
    | _ => exact ih k d h

theorem hex_length (b : Bytes) : (Archive.hex b).length = 2 * b.length := by
  induction b with
  | nil => rfl
  | cons x b ih =>
    simp only [Archive.hex, List.flatMap_cons, List.length_append, List.length_cons, List.length_nil] at ih ⊢
    omega

/-- **C76** The shell ends at `exit` or `quit` and at no other line; the stripes kept and what has arrived are not touched by it. -/
theorem C76_end (m : Meta) (st : St) (a : Act) (arrive : List Bytes) :
    ((exec m st a arrive).1.ended = true ↔ st.ended = true ∨ a = .quit) ∧ (exec m st .quit arrive).1.kept = st.kept ∧
    (exec m st .quit arrive).2 = .nothing := by
  refine ⟨?_, rfl, rfl⟩
  cases a with
  | quit => simp [exec]
  | fetch k => simp only [exec]; split_ifs <;> [simp; (split <;> simp)]
  | _ => simp [exec]

example (m : Meta) : (exec m .init .quit [[1]]).1.ended = true := rfl

/-- **C76** Whatever is typed and whatever the server sends, and when: no line makes the shell panic, and a dump prints two digits
for each byte asked for, which lie within a stripe. -/
theorem C76_no_panic (m : Meta) (hm : Saveable m) (st : St) (h : Reach m st) (a : Act) (arrive : List Bytes)
    (hsay : ∀ o, a = .say o → o ≠ .panic ∧ ∀ t, o ≠ .hex t) :
    (exec m st a arrive).2 ≠ .panic ∧
    ∀ t, (exec m st a arrive).2 = .hex t → ∃ k off len, a = .dump k off len ∧ t.length = 2 * len ∧ off + len ≤ stripeSize m := by
  have hsz : stripeSize m < 2 ^ 64 - 1 := by
    have : 2 ^ m.shift.toNat ≤ 2 ^ 17 := Nat.pow_le_pow_right (by decide) hm.2.2.2.1
    simp only [stripeSize, stripeSectorCount]
    omega
  cases a with
  | quit => simp [exec]
  | say o => exact ⟨(hsay o rfl).1, fun t ht => absurd ht ((hsay o rfl).2 t)⟩
  | header k => simp only [exec, showHeader]; split <;> simp
  | fetch k => simp only [exec]; split_ifs <;> [simp; (split <;> simp)]
  | dump k off len =>
    simp only [exec, dump]
    split
    · simp
    · split_ifs with h1 h2
      · simp
      · rw [sat_gt hsz] at h2
        refine ⟨by simp, fun t ht => ⟨k, off, len, rfl, ?_, by omega⟩⟩
        simp only [Out.hex.injEq] at ht
        rw [← ht, hex_length]
        simp [zeros]
      · split
        · simp
        · rename_i d hd
          have hl := reach_sized h k d hd
          split_ifs with h3 h4
          · simp
          · rw [hl, sat_gt hsz] at h3
            rw [hl] at h4
            omega
          · rw [hl, sat_gt hsz] at h3
            refine ⟨by simp, fun t ht => ⟨k, off, len, rfl, ?_, by omega⟩⟩
            simp only [Out.hex.injEq] at ht
            rw [← ht, hex_length]
            simp only [List.length_take, List.length_drop]
            omega

/-- The lines themselves never say so. -/
theorem C76_line_quiet (ws : Char → Bool) (line : Text) (o : Out) (h : parseLine ws line = .say o) : o ≠ .panic ∧ ∀ t, o ≠ .hex t := by
  have ha : ∀ x o, arg x = .error o → o ≠ .panic ∧ ∀ t, o ≠ .hex t := by
    intro x o h
    cases x with
    | none => simp only [arg, Except.error.injEq] at h; subst h; simp
    | some t =>
      simp only [arg] at h
      split at h
      · simp only [Except.error.injEq] at h; subst h; simp
      · cases h
  unfold parseLine at h
  split at h
  · simp only [Act.say.injEq] at h; subst h; simp
  · simp only [command] at h
    split_ifs at h
    · simp only [Act.say.injEq] at h; subst h; simp
    · split at h
      · cases h
      · rename_i e; simp only [Act.say.injEq] at h; subst h; exact ha _ _ e
    · split at h
      · cases h
      · rename_i e; simp only [Act.say.injEq] at h; subst h; exact ha _ _ e
    · split at h
      · cases h
      all_goals
        simp only [Act.say.injEq] at h
        subst h
        first
        | (rename_i e _ _; exact ha _ _ e)
        | (rename_i e _; exact ha _ _ e)
        | (rename_i e; exact ha _ _ e)
        | (rename_i e; exact ha _ _ (by assumption))
    · simp only [Act.say.injEq] at h; subst h; simp

/-! ## Where it fails -/

/-- A served volume for the examples: stripes of two sectors; stripe 0 written, 1 only in the image, 2 empty, 3 fetched and
written. -/
def shellSrv : Srv :=
  { md := { Meta.new 1 4 0 with headers := [2, 4, 0, 7] }
    dev := fun x => List.replicate 512 (UInt8.ofNat (x + 1))
    devOk := fun _ => true
    src := some fun x => List.replicate 512 (UInt8.ofNat (100 + x))
    srcOk := fun _ => true }

theorem shellSrv_sized : shellSrv.Sized := by
  refine ⟨fun x => by simp [shellSrv], ?_⟩
  rintro f hf x
  simp only [shellSrv, Option.some.injEq] at hf
  subst hf
  simp

theorem shellSrv_saveable : Saveable shellSrv.md := ⟨rfl, rfl, rfl, by decide, by decide⟩

/-- A session in time: stripe 3 is fetched and a byte of its second sector is shown; the same bytes of stripe 0, which has not been
fetched, are not; and a range that leaves the stripe is refused. -/
example : ∃ σ, Prompt shellSrv [(.fetch 3, .fetched)] σ ∧
    (exec shellSrv.md σ.st (.dump 3 512 1) []).2 = .hex ['0', '8'] ∧ (exec shellSrv.md σ.st (.dump 0 512 1) []).2 = .notFetched ∧
    (exec shellSrv.md σ.st (.dump 3 1024 1) []).2 = .invalidRange ∧
    (exec shellSrv.md σ.st (.header 3) []).2 = .header 7 true ∧ (exec shellSrv.md σ.st (.header 1) []).2 = .header 4 false := by
  have p0 := Prompt.start (s := shellSrv)
  have p1 := Prompt.line (.fetch 3) [due shellSrv ⟨.init, 2, true⟩ (.fetch 3)] p0 rfl (by simp)
  have f1 := (C76_fetch shellSrv shellSrv_sized shellSrv_saveable _ _ p0 [due shellSrv ⟨.init, 2, true⟩ (.fetch 3)] 3 (by simp)).2.1
    (by decide) |>.2.1 rfl rfl rfl
  have hs : shown (shellSrv.volume.answer 3) = .fetched := rfl
  rw [hs] at f1
  simp only [f1] at p1
  have hl : (shellSrv.volume.stripe 3).length = 1024 := by rw [stripe_length shellSrv_sized]; rfl
  have hl0 : (shellSrv.volume.stripe 0).length = 1024 := by rw [stripe_length shellSrv_sized]; rfl
  have d := fun off len => (C76_dump_partial shellSrv shellSrv_sized shellSrv_saveable _ _ p1 [] 3 off len).2 _ rfl rfl
  have d0 := (C76_dump_partial shellSrv shellSrv_sized shellSrv_saveable _ _ p1 [] 0 512 1).2 _ rfl rfl
  refine ⟨_, p1, ?_, d0.1 (by simp), ((d 1024 1).2 (by simp)).2 (by rw [hl]; decide), rfl, rfl⟩
  rw [((d 512 1).2 (by simp)).1 (by rw [hl]; decide)]
  have : slice (shellSrv.volume.stripe 3) 512 1 = [8] := by decide +kernel
  rw [this]
  decide

/-- **C76**, a counterexample to the full claim: stripe 1 of the served volume has not been written, but it has a source, and its
contents are those of the image, which the server sends. `fetch_stripe 1` prints FETCHED, and yet `dump_stripe 1` prints zeros. -/
theorem C76_false_source : ∃ h σ, Prompt shellSrv h σ ∧ (Act.fetch 1, Out.fetched) ∈ h ∧
    (Act.dump 1 0 1, Out.hex (Archive.hex [0])) ∈ h ∧ slice (shellSrv.volume.stripe 1) 0 1 = [102] ∧
    shellSrv.volume.answer 1 = .data (shellSrv.volume.stripe 1) := by
  have hans : shellSrv.volume.answer 1 = .data (shellSrv.volume.stripe 1) := rfl
  have p0 := Prompt.start (s := shellSrv)
  have p1 := Prompt.line (.fetch 1) [due shellSrv ⟨.init, 2, true⟩ (.fetch 1)] p0 rfl (by simp)
  have f1 := (C76_fetch shellSrv shellSrv_sized shellSrv_saveable _ _ p0 [due shellSrv ⟨.init, 2, true⟩ (.fetch 1)] 1 (by simp)).2.1
    (by decide) |>.2.1 rfl rfl rfl
  rw [hans] at f1
  have p2 := Prompt.line (.dump 1 0 1) [] p1 (by
    rw [next_st]
    simp only [exec]
    split_ifs
    · rfl
    · split <;> rfl) rfl
  refine ⟨_, _, p2, ?_, ?_, by decide +kernel, hans⟩
  · simp only [List.nil_append, List.mem_append, List.mem_singleton, Prod.mk.injEq]
    exact .inl ⟨trivial, f1.symm⟩
  · simp only [List.nil_append, List.mem_append, List.mem_singleton, Prod.mk.injEq]
    exact .inr ⟨trivial, rfl⟩

/-- **C76**, a counterexample when replies may be late: the reply to `fetch_stripe 0` does not arrive before the time-out. The shell
prints the error and goes on with the same connection, so it takes that reply for the reply to `fetch_stripe 3`, prints FETCHED, and
`dump_stripe 3` prints the bytes of stripe 0. -/
theorem C76_false_late : ∃ h σ sent got, Late shellSrv h σ sent got ∧ (Act.fetch 0, Out.failed .io) ∈ h ∧
    (Act.fetch 3, Out.fetched) ∈ h ∧ (Act.dump 3 0 1, Out.hex (Archive.hex [1])) ∈ h ∧
    slice (shellSrv.volume.stripe 0) 0 1 = [1] ∧ slice (shellSrv.volume.stripe 3) 0 1 = [7] := by
  have l0 := Late.start (s := shellSrv)
  have e1 : exec shellSrv.md .init (.fetch 0) [] = (.init, .failed .io) := by
    simp [exec, St.init, shellSrv, clientFetch, recv, readExact]
  have l1 := Late.line (.fetch 0) [] l0 rfl (by simp)
  have n1 : Sess.next shellSrv ⟨.init, 2, true⟩ (.fetch 0) [] = ⟨.init, 3, true⟩ := by
    have hw : wants shellSrv.md (.fetch 0) = some 0 := rfl
    simp only [Sess.next, hw, e1]
    rfl
  rw [n1, e1] at l1
  obtain ⟨cs', h1, h2⟩ := reply_cases (s := shellSrv) shellSrv_sized shellSrv_saveable 2 0 (cs := [(shellSrv.handleRead 2 0).1]) (by simp)
  have h3 : clientFetch (some shellSrv.md) [(shellSrv.handleRead 2 0).1] = (.ok (shellSrv.volume.stripe 0), cs') := by
    rcases h2 with ⟨h2, -⟩ | ⟨-, h2⟩
    · exact h2
    · cases h2
  have hk : ¬ 3 ≥ shellSrv.md.headers.length := by decide
  have e2 : exec shellSrv.md .init (.fetch 3) [(shellSrv.handleRead 2 0).1] =
      (⟨Function.update (fun _ => none) 3 (some (shellSrv.volume.stripe 0)), cs', false⟩, .fetched) := by
    simp only [exec, if_neg hk, St.init, List.nil_append, h3]
  have l2 := Late.line (.fetch 3) [(shellSrv.handleRead 2 0).1] l1 rfl (by
    simp only [List.flatten_cons, List.flatten_nil, List.append_nil, List.nil_append]
    exact List.prefix_append _ _)
  have n2 : (Sess.next shellSrv ⟨.init, 3, true⟩ (.fetch 3) [(shellSrv.handleRead 2 0).1]).st =
      ⟨Function.update (fun _ => none) 3 (some (shellSrv.volume.stripe 0)), cs', false⟩ := by
    rw [next_st, e2]
  rw [e2] at l2
  have l3 := Late.line (.dump 3 0 1) [] l2 (by rw [n2]) (by
    simp only [List.flatten_cons, List.flatten_nil, List.append_nil, List.nil_append]
    simp only [List.append_assoc]
    exact List.prefix_append _ _)
  refine ⟨_, _, _, _, l3, ?_, ?_, ?_, by decide +kernel, by decide +kernel⟩
  · simp
  · simp
  · simp only [List.mem_append, List.mem_singleton, Prod.mk.injEq]
    refine .inr ⟨trivial, ?_⟩
    rw [n2]
    have hh : shellSrv.md.headers[3]? = some 7 := rfl
    have hb : slice (shellSrv.volume.stripe 0) 0 1 = [1] := by decide +kernel
    have hl0 : (shellSrv.volume.stripe 0).length = 1024 := by rw [stripe_length shellSrv_sized]; rfl
    have hW : has 7 WRITTEN = true := by decide
    simp only [exec, dump, hh, hW, Function.update_self, hl0]
    rw [show (List.take 1 (List.drop 0 (shellSrv.volume.stripe 0))) = [1] from hb]
    rfl

end Verif.Shell
