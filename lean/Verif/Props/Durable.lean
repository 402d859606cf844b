import Verif.Model.Durable
import Verif.Props.DirStore

/-! # C89: what a command reports as done is still there after a power loss -/

namespace Verif.Durable
open Verif Verif.Disk Verif.Dir Verif.Archive

variable {s : Files} {p q base : Path} {cs : List Call}

/-- The place a call acts on. -/
def Call.path : Call → Path
  | .mkdir p => p
  | .create p => p
  | .truncate p => p
  | .setLen p _ => p
  | .write p _ _ => p
  | .syncFile p => p
  | .syncDir p => p

theorem calls_append (s : Files) (a b : List Call) : s.calls (a ++ b) = (s.calls a).calls b := by simp [Files.calls]
theorem calls_cons (s : Files) (a : Call) (b : List Call) : s.calls (a :: b) = (s.call a).calls b := rfl
theorem calls_nil (s : Files) : s.calls [] = s := rfl

theorem call_other {c : Call} (h : (∃ d, c = .syncDir d) ∨ c.path ≠ q) :
    (s.call c).cur q = s.cur q ∧ (s.call c).stored q = s.stored q ∧ (s.named q = true → (s.call c).named q = true) := by
  cases c with
  | syncDir d => exact ⟨rfl, rfl, fun hq => by simp only [Files.call]; split <;> simp_all⟩
  | create p =>
    have h : p ≠ q := h.resolve_left (by simp)
    simp only [Files.call]
    split
    · simp [upd_ne _ _ (Ne.symm h)]
    · simp
  | mkdir p | truncate p | setLen p n | write p o b | syncFile p =>
    have h : p ≠ q := h.resolve_left (by simp)
    simp [Files.call, Files.set, upd_ne _ _ (Ne.symm h)]

theorem calls_other (h : ∀ c ∈ cs, (∃ d, c = .syncDir d) ∨ c.path ≠ q) :
    (s.calls cs).cur q = s.cur q ∧ (s.calls cs).stored q = s.stored q ∧ (s.named q = true → (s.calls cs).named q = true) := by
  induction cs generalizing s with
  | nil => exact ⟨rfl, rfl, id⟩
  | cons c cs ih =>
    obtain ⟨a1, a2, a3⟩ := call_other (s := s) (h c (by simp))
    obtain ⟨b1, b2, b3⟩ := ih (s := s.call c) fun c' hc' => h c' (List.mem_cons_of_mem _ hc')
    exact ⟨b1.trans a1, b2.trans a2, fun hq => b3 (a3 hq)⟩

/-- What was certain stays certain when nothing on the way to it is acted on. -/
theorem calls_certain (h : ∀ c ∈ cs, (∃ d, c = .syncDir d) ∨ ¬ c.path <+: q) (hc : s.Certain q) :
    (s.calls cs).cur q = s.cur q ∧ (s.calls cs).Certain q := by
  have hq := calls_other (s := s) (q := q) fun c hm => (h c hm).imp_right fun e e' => e (e' ▸ List.prefix_refl _)
  refine ⟨hq.1, fun r hr hrq => ?_, fun b hb => ?_⟩
  · exact (calls_other (s := s) (q := r) fun c hm => (h c hm).imp_right fun e e' => e (e' ▸ hrq)).2.2 (hc.1 r hr hrq)
  · rw [hq.2.1]; exact hc.2 b (hq.1 ▸ hb)

theorem call_fresh {c : Call} (h : ∀ d, c ≠ .syncDir d) (hn : s.named q = false) : (s.call c).named q = false := by
  cases c with
  | syncDir d => exact absurd rfl (h d)
  | mkdir p => simp only [Files.call, upd]; split <;> simp [hn]
  | create p =>
    simp only [Files.call]
    split
    · simp only [upd]; split <;> simp [hn]
    · exact hn
  | truncate p | setLen p n | write p o b | syncFile p => exact hn

theorem calls_fresh (h : ∀ c ∈ cs, ∀ d, c ≠ .syncDir d) (hn : s.named q = false) : (s.calls cs).named q = false := by
  induction cs generalizing s with
  | nil => exact hn
  | cons c cs ih => exact ih (s := s.call c) (fun c' hc' => h c' (List.mem_cons_of_mem _ hc')) (call_fresh (h c (by simp)) hn)

open Classical in
/-- What is left when nothing uncertain was stored. -/
noncomputable def bare (s : Files) : FS := fun p => if s.Named p then (match s.cur p with
    | some (.file b) => if s.stored p = true then some (.file b) else some (.file [])
    | x => x) else none

theorem bare_powerLoss (s : Files) : PowerLoss s (bare s) := by
  refine ⟨fun p _ hc => ?_, fun p b hb hn => ?_⟩
  · unfold bare
    rw [if_pos hc.1]
    split
    · rename_i b hb; rw [if_pos (hc.2 b hb), hb]
    · rfl
  · unfold bare
    rw [if_pos hn, hb]
    simp only
    split <;> exact ⟨_, rfl⟩

theorem bare_tree (h : Tree s.cur) : Tree (bare s) := by
  refine ⟨?_, fun p c hp => ?_⟩
  · unfold bare
    rw [if_pos, h.root]
    intro q hq hqp
    rw [List.prefix_nil] at hqp
    exact absurd hqp hq
  · unfold bare at hp ⊢
    split at hp
    · rename_i hn
      have hpar : s.cur p = some .dir := h.parent p c fun e => by rw [e] at hp; exact hp rfl
      have hnp : s.Named p := fun q hq hqp => hn q hq (hqp.trans (List.prefix_append _ _))
      rw [if_pos hnp, hpar]
    · exact absurd rfl hp

theorem bare_fresh (hp : p ≠ []) (hn : s.named p = false) : bare s p = none := by
  unfold bare
  rw [if_neg]
  intro h
  rw [h p hp (List.prefix_refl _)] at hn
  cases hn

/-! ### init-metadata -/

theorem patch_nil (d : Bytes) : patch [] 0 d = d := by simp [patch, zeros]

theorem patch_zero (b d : Bytes) : patch b 0 d = d ++ b.drop d.length := by simp [patch, zeros]

/-- The file after `init-metadata`: the image, and what was behind it. -/
def image (old : Bytes) (minimum : Nat) (buf : Bytes) : Bytes := buf ++ (resize old (max old.length minimum)).drop buf.length

theorem resize_self (b : Bytes) : resize b b.length = b := by simp [resize, zeros]

theorem bytes_set (s : Files) (p : Path) (b : Bytes) : (s.set p b).bytes p = b := by simp [Files.bytes, Files.set]

theorem set_cur (s : Files) (p : Path) (b : Bytes) : (s.set p b).cur p = some (.file b) := by simp [Files.set]

/-- What the calls of `init-metadata` come to. -/
theorem init_calls {bare : Bool} {minimum : Nat} {buf : Bytes} (hf : s.cur p = none ∨ ∃ b, s.cur p = some (.file b)) (hp : p ≠ [])
    (h : (initCalls s bare p minimum buf).2 = true) :
    (s.calls (initCalls s bare p minimum buf).1).cur p = some (.file (image (s.bytes p) minimum buf)) ∧
    (s.calls (initCalls s bare p minimum buf).1).stored p = true ∧
    (s.cur p = none ∨ s.named p = true → (s.calls (initCalls s bare p minimum buf).1).named p = true) := by
  rcases hf with hf | ⟨b, hf⟩
  · have hb : s.bytes p = [] := by simp [Files.bytes, hf]
    cases bare with
    | true => simp [initCalls, ensureCalls, hf] at h
    | false =>
      cases minimum with
      | zero =>
        simp [initCalls, ensureCalls, hf, hb, saveCalls, Files.calls, Files.call, Files.set, Files.bytes, image, resize, patch, zeros, hp]
      | succ k =>
        simp [initCalls, ensureCalls, hf, hb, saveCalls, Files.calls, Files.call, Files.set, Files.bytes, image, resize, patch, zeros, hp]
  · have hb : s.bytes p = b := by simp [Files.bytes, hf]
    by_cases hm : b.length < minimum
    · have : max b.length minimum = minimum := by omega
      simp [initCalls, ensureCalls, hf, hb, hm, saveCalls, Files.calls, Files.call, Files.set, Files.bytes, image, patch_zero, this]
    · have : max b.length minimum = b.length := by omega
      simp [initCalls, ensureCalls, hf, hb, hm, saveCalls, Files.calls, Files.call, Files.set, Files.bytes, image, patch_zero, this, resize_self]

theorem init_paths {bare : Bool} {minimum : Nat} {buf : Bytes} : ∀ c ∈ (initCalls s bare p minimum buf).1, (∃ d, c = .syncDir d) ∨ c.path = p := by
  intro c hc
  have he : ∀ c ∈ (ensureCalls s bare p minimum).1, (∃ d, c = .syncDir d) ∨ c.path = p := by
    intro c hc
    have : c = .create p ∨ c = .setLen p minimum ∨ c = .syncFile p ∨ c = .syncDir p.dropLast := by
      simp only [ensureCalls] at hc
      grind
    rcases this with rfl | rfl | rfl | rfl
    · exact .inr rfl
    · exact .inr rfl
    · exact .inr rfl
    · exact .inl ⟨_, rfl⟩
  simp only [initCalls] at hc
  split at hc
  · rename_i cs hcs; rw [hcs] at he; exact he c hc
  · rename_i cs hcs
    rw [hcs] at he
    rcases List.mem_append.1 hc with hc | hc
    · exact he c hc
    · simp only [saveCalls, List.mem_cons, List.not_mem_nil, or_false] at hc
      rcases hc with rfl | rfl <;> exact .inr rfl

/-- **C89** After `init-metadata` reports success the metadata file survives every power loss: the whole image is in it, and what was
behind it is as it was. The directory is one whose name is certain; a file that was there before has a certain name. -/
theorem C89_init {bare : Bool} {minimum : Nat} {buf : Bytes} {fs : FS} (hp : p ≠ []) (hd : s.Named p.dropLast)
    (hf : s.cur p = none ∨ (∃ b, s.cur p = some (.file b)) ∧ s.named p = true) (h : (initCalls s bare p minimum buf).2 = true)
    (hl : PowerLoss (s.calls (initCalls s bare p minimum buf).1) fs) :
    ∃ b, fs p = some (.file b) ∧ b.take buf.length = buf ∧ (minimum ≤ buf.length → b.drop buf.length = (s.bytes p).drop buf.length) := by
  obtain ⟨a1, a2, a3⟩ := init_calls (hf.imp_right (·.1)) hp h
  refine ⟨image (s.bytes p) minimum buf, ?_, by simp [image], fun hm => ?_⟩
  · rw [hl.1 p (by rw [a1]; simp) ⟨fun q hq hqp => ?_, fun _ _ => a2⟩, a1]
    by_cases e : q = p
    · subst e; exact a3 (hf.imp_right (·.2))
    · have hpre : q <+: p.dropLast := by
        have hlen : q.length < p.length := by
          rcases Nat.lt_or_ge q.length p.length with h' | h'
          · exact h'
          · exact absurd (hqp.eq_of_length_le h') e
        rw [List.prefix_iff_eq_take] at hqp ⊢
        rw [List.dropLast_eq_take, List.take_take, Nat.min_eq_left (by omega)]
        exact hqp
      have hne : ∀ c ∈ (initCalls s bare p minimum buf).1, (∃ d, c = .syncDir d) ∨ c.path ≠ q := fun c hc =>
        (init_paths c hc).imp_right fun e' => by rw [e']; exact Ne.symm e
      exact (calls_other hne).2.2 (hd q hq hpre)
  · simp only [image, List.drop_append, List.drop_length, List.nil_append, Nat.sub_self, List.drop_zero]
    simp only [resize]
    by_cases hs : (s.bytes p).length ≤ minimum
    · rw [Nat.max_eq_right hs, List.drop_append, List.drop_eq_nil_of_le (by simp; omega)]
      rw [List.drop_eq_nil_of_le (by simp [zeros]; omega), List.drop_eq_nil_of_le (by omega)]; rfl
    · rw [Nat.max_eq_left (by omega)]; simp [zeros]

theorem init_cur {bare : Bool} {minimum : Nat} {buf : Bytes} (hf : s.cur p = none ∨ ∃ b, s.cur p = some (.file b)) (hp : p ≠ [])
    (h : (initCalls s bare p minimum buf).2 = true) :
    (s.calls (initCalls s bare p minimum buf).1).cur = upd s.cur p (some (.file (image (s.bytes p) minimum buf))) := by
  funext q
  by_cases e : q = p
  · subst e; rw [upd_same]; exact (init_calls hf hp h).1
  · rw [upd_ne _ _ e]
    exact (calls_other fun c hc => (init_paths c hc).imp_right fun e' => by rw [e']; exact Ne.symm e).1

theorem tree_file {fs : FS} {b : Bytes} (ht : Tree fs) (hp : p ≠ []) (hd : fs p.dropLast = some .dir) (hf : fs p ≠ some .dir) :
    Tree (upd fs p (some (.file b))) := by
  have e := List.dropLast_append_getLast hp
  have := ht.upd (c := p.getLast hp) (v := .file b) hd (.inr (by rw [e]; exact hf))
  rwa [e] at this

/-- A second `init-metadata` after one that made the file and was stopped. -/
theorem init_again {b1 : Bool} {minimum : Nat} {buf : Bytes} {c0 : List Call} (hp : p ≠ []) (ht : Tree s.cur) (hd : s.cur p.dropLast = some .dir)
    (h0 : s.cur p = none) (hn : s.named p = false) (hc0 : ∀ c ∈ c0, c.path = p ∧ ∀ d, c ≠ .syncDir d)
    (hcur : ∃ b, (s.calls c0).cur p = some (.file b)) :
    (initCalls (s.calls c0) b1 p minimum buf).2 = true ∧
    ∃ fs, PowerLoss ((s.calls c0).calls (initCalls (s.calls c0) b1 p minimum buf).1) fs ∧ Tree fs ∧ fs p = none := by
  obtain ⟨b, hb⟩ := hcur
  have hok : (initCalls (s.calls c0) b1 p minimum buf).2 = true := by simp [initCalls, ensureCalls, hb]
  have hns : ∀ c ∈ (initCalls (s.calls c0) b1 p minimum buf).1, ∀ d, c ≠ .syncDir d := by
    intro c hc
    simp only [initCalls, ensureCalls, hb, saveCalls] at hc
    intro d
    rintro rfl
    split at hc
    · grind
    · grind
  have hother : ∀ q, q ≠ p → (s.calls c0).cur q = s.cur q := fun q hq =>
    (calls_other fun c hc => .inr (by rw [(hc0 c hc).1]; exact Ne.symm hq)).1
  refine ⟨hok, bare _, bare_powerLoss _, bare_tree ?_, bare_fresh hp (calls_fresh hns (calls_fresh (fun c hc => (hc0 c hc).2) hn))⟩
  rw [init_cur (.inr ⟨b, hb⟩) hp hok]
  have : upd (s.calls c0).cur p (some (.file (image ((s.calls c0).bytes p) minimum buf))) =
      upd s.cur p (some (.file (image ((s.calls c0).bytes p) minimum buf))) := by
    funext q
    by_cases e : q = p
    · subst e; simp
    · rw [upd_ne _ _ e, upd_ne _ _ e, hother q e]
  rw [this]
  exact tree_file ht hp hd (by rw [h0]; simp)

/-- **C89** is false of `init-metadata` run again: if the first run is stopped after it has made the file, the second reports success
but never syncs the directory, and a power loss may leave no file. -/
theorem C89_false_init (minimum : Nat) (buf : Bytes) (hp : p ≠ []) (ht : Tree s.cur) (hd : s.cur p.dropLast = some .dir)
    (h0 : s.cur p = none) (hn : s.named p = false) :
    ∃ k s1, s1 = s.calls ((initCalls s false p minimum buf).1.take k) ∧ (initCalls s1 false p minimum buf).2 = true ∧
      ∃ fs, PowerLoss (s1.calls (initCalls s1 false p minimum buf).1) fs ∧ Tree fs ∧ fs p = none := by
  refine ⟨1, _, rfl, ?_⟩
  have e : (initCalls s false p minimum buf).1.take 1 = [.create p] := by simp [initCalls, ensureCalls, h0]
  rw [e]
  exact init_again hp ht hd h0 hn (by simp [Call.path]) ⟨[], by simp [Files.calls, Files.call, h0]⟩

/-- **C89** is false of `init-metadata` with a bare file name: the first run makes the file, then reports an error; the second reports
success, and a power loss may leave no file. -/
theorem C89_false_bare (minimum : Nat) (buf : Bytes) (hp : p ≠ []) (ht : Tree s.cur) (hd : s.cur p.dropLast = some .dir)
    (h0 : s.cur p = none) (hn : s.named p = false) :
    (initCalls s true p minimum buf).2 = false ∧
    ∃ s1, s1 = s.calls (initCalls s true p minimum buf).1 ∧ (initCalls s1 true p minimum buf).2 = true ∧
      ∃ fs, PowerLoss (s1.calls (initCalls s1 true p minimum buf).1) fs ∧ Tree fs ∧ fs p = none := by
  refine ⟨by simp [initCalls, ensureCalls, h0], _, rfl, ?_⟩
  have hb : s.bytes p = [] := by simp [Files.bytes, h0]
  refine init_again hp ht hd h0 hn ?_ ?_
  · intro c hc
    simp only [initCalls, ensureCalls, h0, hb] at hc
    grind [Call.path]
  · cases minimum <;> simp [initCalls, ensureCalls, h0, hb, Files.calls, Files.call, Files.set]

/-! ### Commands that write one file -/

/-- The calls of the commands that make a file: `export-archive`, `xts decode`, `xts encode`. -/
def Makes (p : Path) (cs : List Call) : Prop :=
  (∃ total stripes, cs = exportCalls p total stripes) ∨ (∃ chunks, cs = decodeCalls p chunks) ∨ ∃ size chunks, cs = encodeCalls p size chunks

theorem Makes.shape (h : Makes p cs) : ∃ r, cs = .create p :: .truncate p :: r ∧ ∀ c ∈ r, (∃ n, c = .setLen p n) ∨ ∃ o b, c = .write p o b := by
  have hw : ∀ (l : List (Nat × Bytes)), ∀ c ∈ l.map fun x => Call.write p x.1 x.2, (∃ n, c = .setLen p n) ∨ ∃ o b, c = .write p o b := by
    intro l c hc
    obtain ⟨x, -, rfl⟩ := List.mem_map.1 hc
    exact .inr ⟨_, _, rfl⟩
  rcases h with ⟨t, st, rfl⟩ | ⟨ch, rfl⟩ | ⟨n, ch, rfl⟩
  · unfold exportCalls
    split
    · exact ⟨[], rfl, by simp⟩
    · refine ⟨_, rfl, fun c hc => ?_⟩
      rcases List.mem_cons.1 hc with rfl | hc
      · exact .inl ⟨_, rfl⟩
      · exact hw st c hc
  · exact ⟨_, rfl, hw ch⟩
  · refine ⟨_, rfl, fun c hc => ?_⟩
    rcases List.mem_cons.1 hc with rfl | hc
    · exact .inl ⟨_, rfl⟩
    · exact hw ch c hc

theorem Makes.paths (h : Makes p cs) : ∀ c ∈ cs, c.path = p := by
  obtain ⟨r, rfl, hr⟩ := h.shape
  intro c hc
  simp only [List.mem_cons] at hc
  rcases hc with rfl | rfl | hc
  · rfl
  · rfl
  · rcases hr c hc with ⟨n, rfl⟩ | ⟨o, b, rfl⟩ <;> rfl

/-- Writing leaves a file whose contents are not certain. -/
theorem Makes.file (h : Makes p cs) : (∃ b, (s.calls cs).cur p = some (.file b)) ∧ (s.calls cs).stored p = false := by
  obtain ⟨r, rfl, hr⟩ := h.shape
  have key : ∀ (r : List Call) (s : Files), (∀ c ∈ r, (∃ n, c = .setLen p n) ∨ ∃ o b, c = .write p o b) →
      (∃ b, s.cur p = some (.file b)) ∧ s.stored p = false → (∃ b, (s.calls r).cur p = some (.file b)) ∧ (s.calls r).stored p = false := by
    intro r
    induction r with
    | nil => exact fun _ _ h => h
    | cons c r ih =>
      intro s hr hs
      refine ih (s.call c) (fun c' hc' => hr c' (List.mem_cons_of_mem _ hc')) ?_
      rcases hr c (by simp) with ⟨n, rfl⟩ | ⟨o, b, rfl⟩ <;> simp [Files.call, Files.set]
  exact key r _ hr (by simp [Files.call, Files.set])

/-- **C89** is false of `export-archive` and `xts`: nothing they write is synced, so after they report success a power loss may leave
the file empty or missing. -/
theorem C89_false_files (h : Makes p cs) (hp : p ≠ []) (ht : Tree s.cur) (hd : s.cur p.dropLast = some .dir) (hf : s.cur p ≠ some .dir) :
    ∃ fs, PowerLoss (s.calls cs) fs ∧ Tree fs ∧ (fs p = none ∨ fs p = some (.file [])) := by
  obtain ⟨⟨b, hb⟩, hst⟩ := h.file (s := s)
  have hc : (s.calls cs).cur = upd s.cur p (some (.file b)) := by
    funext q
    by_cases e : q = p
    · subst e; rw [upd_same]; exact hb
    · rw [upd_ne _ _ e]
      exact (calls_other fun c hm => .inr (by rw [h.paths c hm]; exact Ne.symm e)).1
  refine ⟨bare _, bare_powerLoss _, bare_tree (by rw [hc]; exact tree_file ht hp hd hf), ?_⟩
  unfold bare
  split
  · right; simp [hb, hst]
  · exact .inl rfl

/-- **C89**, partial: what `export-archive` or `xts` wrote survives once the user has synced the file and its directory. -/
theorem C89_files_partial (h : Makes p cs) (hp : p ≠ []) (hd : s.Named p.dropLast) {fs : FS}
    (hl : PowerLoss (s.calls (cs ++ [.syncFile p, .syncDir p.dropLast])) fs) : fs p = (s.calls cs).cur p := by
  obtain ⟨⟨b, hb⟩, -⟩ := h.file (s := s)
  rw [calls_append] at hl
  have hcur : ((s.calls cs).calls [.syncFile p, .syncDir p.dropLast]).cur = (s.calls cs).cur := rfl
  rw [hl.1 p (by rw [hcur, hb]; simp) ⟨fun q hq hqp => ?_, fun _ _ => by simp [Files.calls, Files.call]⟩, hcur]
  show (if q ≠ [] ∧ q.dropLast = p.dropLast then true else (s.calls cs).named q) = true
  split
  · rfl
  · rename_i hne
    have e : q ≠ p := fun e => hne ⟨hq, by rw [e]⟩
    have hpre : q <+: p.dropLast := by
      have hlen : q.length < p.length := by
        rcases Nat.lt_or_ge q.length p.length with h' | h'
        · exact h'
        · exact absurd (hqp.eq_of_length_le h') e
      rw [List.prefix_iff_eq_take] at hqp ⊢
      rw [List.dropLast_eq_take, List.take_take, Nat.min_eq_left (by omega)]
      exact hqp
    exact (calls_other fun c hm => .inr (by rw [h.paths c hm]; exact Ne.symm e)).2.2 (hd q hq hpre)

/-- **C89** Whatever was certain in other files and directories stays so while `init-metadata`, `export-archive` or `xts` runs, wherever
the power fails. -/
theorem C89_others (h : Makes p cs ∨ ∃ bare minimum buf, cs = (initCalls s bare p minimum buf).1) (k : Nat) (hq : ¬ p <+: q)
    (hx : s.cur q ≠ none) (hc : s.Certain q) {fs : FS} (hl : PowerLoss (s.calls (cs.take k)) fs) : fs q = s.cur q := by
  have hps : ∀ c ∈ cs.take k, (∃ d, c = .syncDir d) ∨ ¬ c.path <+: q := by
    intro c hm
    have hm := List.mem_of_mem_take hm
    rcases h with h | ⟨bare, m, buf, rfl⟩
    · rw [h.paths c hm]; exact .inr hq
    · exact (init_paths c hm).imp_right fun e => by rw [e]; exact hq
  obtain ⟨a1, a2⟩ := calls_certain hps hc
  rw [hl.1 q (by rw [a1]; exact hx) a2, a1]

/-! ### Archives in a directory -/

theorem mkdirCalls_cur (ps : List Name) (budget : Option Nat) (s : Files) (cur : Path) :
    (s.calls (mkdirCalls budget s.cur cur ps)).cur = (mkdirs budget s.cur cur ps).1 := by
  induction ps generalizing budget s cur with
  | nil => rfl
  | cons c ps ih =>
    simp only [mkdirCalls, mkdirs]
    by_cases hc : c = dotdot
    · rw [if_pos hc, if_pos hc]; exact ih _ _ _
    · rw [if_neg hc, if_neg hc]
      cases hn : s.cur (cur ++ [c]) with
      | some v => cases v with
        | dir => exact ih _ _ _
        | file b => rfl
      | none =>
        simp only
        by_cases hb : budget = some 0
        · rw [if_pos hb, if_pos hb]; rfl
        · rw [if_neg hb, if_neg hb]; exact ih _ (s.call (.mkdir (cur ++ [c]))) _

theorem writeCalls_cur (s : Files) (p : Path) (d : Bytes) (f : Fault) : (s.calls (writeCalls s.cur p d f)).cur = (write s.cur p d f).1 := by
  have key : ∀ b : Bytes, (s.calls [.create p, .truncate p, .write p 0 b]).cur = upd s.cur p (some (.file b)) := by
    intro b
    funext q
    by_cases e : q = p
    · subst e; simp [Files.calls, Files.call, Files.set, Files.bytes, patch_nil]
    · rw [upd_ne _ _ e]
      exact (calls_other fun c hc => .inr (by
        simp only [List.mem_cons, List.not_mem_nil, or_false] at hc
        rcases hc with rfl | rfl | rfl <;> exact Ne.symm e)).1
  unfold writeCalls write
  cases hp : s.cur p with
  | none => cases f <;> first | rfl | exact key _
  | some v => cases v with
    | dir => rfl
    | file b => cases f <;> first | rfl | exact key _

/-- The calls of a put do what the put does. -/
theorem putCalls_cur (s : Files) (base : Path) (n : Name) (d : Bytes) (f : Fault) :
    (s.calls (putCalls base s.cur n d f)).cur = (tryPut base s.cur n d f).1 := by
  unfold putCalls tryPut
  cases hl : (parts n).getLast? with
  | none => rfl
  | some l =>
    simp only
    rw [calls_append]
    have h1 := mkdirCalls_cur (parts n).dropLast f.budget s (start base n)
    generalize s.calls (mkdirCalls f.budget s.cur (start base n) (parts n).dropLast) = s' at h1
    generalize mkdirs f.budget s.cur (start base n) (parts n).dropLast = r at h1
    obtain ⟨fs', o⟩ := r
    simp only at h1
    subst h1
    cases o with
    | none => rfl
    | some p =>
      simp only
      by_cases he : (decide (l = dotdot) || endsInSlash n) = true
      · rw [if_pos he, if_pos he]; rfl
      · rw [if_neg he, if_neg he]; exact writeCalls_cur s' _ d f

theorem mkdirCalls_mem (ps : List Name) (hd : dotdot ∉ ps) (budget : Option Nat) (fs : FS) (cur : Path) :
    ∀ c ∈ mkdirCalls budget fs cur ps, ∃ q, c = .mkdir q ∧ cur <+: q := by
  induction ps generalizing budget fs cur with
  | nil => simp [mkdirCalls]
  | cons x ps ih =>
    have hx : x ≠ dotdot := fun e => hd (e ▸ List.mem_cons_self)
    have ih := fun b f => ih (fun hm => hd (List.mem_cons_of_mem _ hm)) b f (cur ++ [x])
    have pre : ∀ {q}, cur ++ [x] <+: q → cur <+: q := fun h => (List.prefix_append _ _).trans h
    intro c hc
    simp only [mkdirCalls, if_neg hx] at hc
    split at hc
    · obtain ⟨q, h1, h2⟩ := ih _ _ c hc; exact ⟨q, h1, pre h2⟩
    · simp at hc
    · split at hc
      · simp at hc
      · rcases List.mem_cons.1 hc with rfl | hc
        · exact ⟨_, rfl, List.prefix_append _ _⟩
        · obtain ⟨q, h1, h2⟩ := ih _ _ c hc; exact ⟨q, h1, pre h2⟩

theorem mkdirs_end (ps : List Name) (hd : dotdot ∉ ps) (budget : Option Nat) (fs fs' : FS) (cur p : Path) (h : mkdirs budget fs cur ps = (fs', some p)) :
    cur <+: p := by
  induction ps generalizing budget fs cur with
  | nil => simp only [mkdirs, Prod.mk.injEq, Option.some.injEq] at h; rw [h.2]
  | cons x ps ih =>
    have hx : x ≠ dotdot := fun e => hd (e ▸ List.mem_cons_self)
    have ih := fun b f h => (List.prefix_append cur [x]).trans (ih (fun hm => hd (List.mem_cons_of_mem _ hm)) b f (cur ++ [x]) h)
    simp only [mkdirs, if_neg hx] at h
    split at h
    · exact ih _ _ h
    · simp at h
    · split at h
      · simp at h
      · exact ih _ _ h

/-- A put under a plain name acts below the directory and syncs nothing. -/
theorem putCalls_mem {fs : FS} {n : Name} {d : Bytes} {f : Fault} (hn : Plain n) :
    ∀ c ∈ putCalls base fs n d f, base <+: c.path ∧ (∀ p, c ≠ .syncDir p) ∧ ∀ p, c ≠ .syncFile p := by
  intro c hc
  obtain ⟨l, h1, h2, h3⟩ := hn.last
  have hd : dotdot ∉ (parts n).dropLast := fun hm => hn.no_dotdot (List.mem_of_mem_dropLast hm)
  simp only [putCalls, h1, hn.start] at hc
  rcases List.mem_append.1 hc with hc | hc
  · obtain ⟨q, rfl, hq⟩ := mkdirCalls_mem _ hd _ _ _ c hc
    exact ⟨hq, by simp, by simp⟩
  · split at hc
    · simp at hc
    · rename_i fs' p hm
      have hpre := mkdirs_end _ hd _ _ _ _ _ hm
      split at hc
      · simp at hc
      · have hp : base <+: p ++ [l] := hpre.trans (List.prefix_append _ _)
        have : c = .create (p ++ [l]) ∨ c = .truncate (p ++ [l]) ∨ ∃ b, c = .write (p ++ [l]) 0 b := by
          unfold writeCalls at hc
          grind
        rcases this with rfl | rfl | ⟨b, rfl⟩ <;> exact ⟨hp, by simp, by simp⟩

variable {c : Cfg} {ls : List Lab} {st st' : St} {f0 f : Files}

/-- Forgetting what is certain. -/
theorem ArchRun.down {s0 : St} (h : ArchRun c base s0 f0 ls st f) : Dir.ArchRun c base s0 f0.cur ls st f.cur := by
  induction h with
  | nil => exact .nil _ _
  | snoc h1 h2 ih =>
    refine ih.snoc ?_
    cases h2 with
    | act g1 g2 g3 g4 => exact .act g1 g2 g3 g4
    | put ps n d fl g1 g2 g3 => rw [putCalls_cur]; exact .put ps n d fl g1 g2 g3

/-- Every run on a directory can be followed. -/
theorem ArchRun.up {s0 : St} {fs0 fs : FS} (h : Dir.ArchRun c base s0 fs0 ls st fs) (h0 : f0.cur = fs0) :
    ∃ f, f.cur = fs ∧ ArchRun c base s0 f0 ls st f := by
  induction h with
  | nil => exact ⟨f0, h0, .nil _ _⟩
  | snoc h1 h2 ih =>
    obtain ⟨f, e, hr⟩ := ih h0
    subst e
    cases h2 with
    | act g1 g2 g3 g4 => exact ⟨f, rfl, hr.snoc (.act g1 g2 g3 g4)⟩
    | put ps n d fl g1 g2 g3 => exact ⟨_, putCalls_cur _ _ _ _ _, hr.snoc (.put ps n d fl g1 g2 g3)⟩

theorem ArchRun.fresh (hP : c.P.Lawful) {s0 : St} (h : ArchRun c base s0 f0 ls st f) (hn : f0.named q = false) : f.named q = false := by
  induction h with
  | nil => exact hn
  | snoc h1 h2 ih =>
    cases h2 with
    | act g1 g2 g3 g4 => exact ih hn
    | put ps n d fl g1 g2 g3 => exact calls_fresh (fun c hc => (putCalls_mem (step_archiveName hP g1 g2).plain c hc).2.1) (ih hn)

theorem ArchRun.certain (hP : c.P.Lawful) {s0 : St} (h : ArchRun c base s0 f0 ls st f) (hq : ¬ base <+: q) (hc : f0.Certain q) :
    f.cur q = f0.cur q ∧ f.Certain q := by
  induction h with
  | nil => exact ⟨rfl, hc⟩
  | snoc h1 h2 ih =>
    obtain ⟨i1, i2⟩ := ih hc
    cases h2 with
    | act g1 g2 g3 g4 => exact ⟨i1, i2⟩
    | put ps n d fl g1 g2 g3 =>
      obtain ⟨a1, a2⟩ := calls_certain (fun x hx => .inr fun e =>
        hq ((putCalls_mem (step_archiveName hP g1 g2).plain x hx).1.trans e)) i2
      exact ⟨a1.trans i1, a2⟩

/-- **C89** is false of `archive` into a directory: no file or directory it makes is ever synced, so however the run ended, a power loss
may leave a directory that does not open as an archive. -/
theorem C89_false_archive (hc : c.Ok) (ht : Tree f0.cur) (hb : f0.cur base = some .dir)
    (hn : f0.named (base ++ parts metadataName) = false) (h : ArchRun c base (St.init c (objects base f0.cur)) f0 ls st f) :
    ∃ fs, PowerLoss f fs ∧ Tree fs ∧ Unopenable c.P c.kek (objects base fs) := by
  have htf := (h.down.mirror hc ht hb).1.tree
  refine ⟨bare f, bare_powerLoss f, bare_tree htf, ?_⟩
  have hpl : Plain metadataName := ArchiveName.desc.plain
  have e : objects base (bare f) metadataName = none := by
    rw [objects_plain (bare_tree htf) hpl]
    unfold fileAt
    rw [bare_fresh (fun e => hpl.ne_nil (List.append_eq_nil_iff.1 e).2) (h.fresh hc.lawful hn)]
  unfold Unopenable openArchive
  simp [e]

/-- Any store that holds what a finished archiver stored presents the archive. -/
theorem presents_of_holds (hc : c.Ok) {st0 objs : Name → Option Bytes} {ls' : List Lab} (hr : Run c (St.init c st0) ls' st) (hd : st.phase = .done)
    (hl : (c.P.encMap (entries c.count st.hashes)).length < 2 ^ 64) (hn : NoCollision c st)
    (hs : ∀ n x, ArchiveName n → st.store n = some x → objs n = some x) : Presents c ls' c.kek objs := by
  have hi := run_inv hr
  obtain ⟨m, m1, m2, -⟩ := hi.metaDone (.inr hd)
  obtain ⟨b, b1, b2, b3⟩ := hi.mapDone hd
  have hcomp := hi.complete (.inr (.inr (.inl hd)))
  have hdes := mapping_round_trip hc.lawful (entries_range hc hcomp.hashed) hl b1
  have ho := open_meta hc m1 (st := objs) (hs _ _ .desc m2)
  rw [hs _ _ .index b2] at ho
  simp only [hdes] at ho
  refine ⟨_, ho, fun id len hid hlen => ?_⟩
  exact complete_says hc hr hcomp hn hid hlen (st := objs) fun hh o e1 e2 _ => by
    obtain ⟨o', e3, -⟩ := hcomp.stored id hh e1
    exact hs _ _ (.object _ (e3 ▸ hc.lawful.sha_len _)) e2

theorem says_labels {ls' : List Lab} (hls : ∀ l, l ≠ .tau → (l ∈ ls' ↔ l ∈ ls)) {id len : Nat} {r : Bytes} (h : Says c ls' id len r) :
    Says c ls id len r := by
  rcases h with ⟨buf, a1, a2⟩ | ⟨a1, a2⟩
  · exact .inl ⟨buf, (hls _ (by simp)).1 a1, a2⟩
  · exact .inr ⟨fun buf hb => a1 buf ((hls _ (by simp)).2 hb), a2⟩

/-- **C89**, partial: an archive in a directory survives every power loss once everything in the directory has been synced by
something else. -/
theorem C89_archive_synced_partial (hc : c.Ok) (ht : Tree f0.cur) (hb : f0.cur base = some .dir)
    (h : ArchRun c base (St.init c (objects base f0.cur)) f0 ls st f) (hd : st.phase = .done)
    (hl : (c.P.encMap (entries c.count st.hashes)).length < 2 ^ 64) (hn : NoCollision c st) {f' : Files} (hcur : f'.cur = f.cur)
    (hsync : ∀ q, base <+: q → f'.cur q ≠ none → f'.Certain q) {fs : FS} (hp : PowerLoss f' fs) (hfs : Tree fs) :
    Presents c ls c.kek (objects base fs) := by
  obtain ⟨hm, ls', hr, hls⟩ := h.down.mirror hc ht hb
  have hi := run_inv hr
  obtain ⟨b, -, -, b3⟩ := hi.mapDone hd
  obtain ⟨src, o1, o2⟩ := presents_of_holds hc hr hd hl hn (objs := objects base fs) fun n x hx hs => by
    have hsame : objects base f.cur n = some x := by
      rcases hm.same n hx with e | ⟨d, e⟩ | e
      · rw [e, hs]
      · rw [b3] at e; cases e
      · rw [hd] at e; cases e
    rw [objects_plain hm.tree hx.plain] at hsame
    rw [objects_plain hfs hx.plain]
    have hfile : f.cur (base ++ parts n) = some (.file x) := by
      unfold fileAt at hsame
      split at hsame
      · rename_i b hb; cases hsame; exact hb
      · cases hsame
    have hne : f'.cur (base ++ parts n) ≠ none := by rw [hcur, hfile]; simp
    have := hp.1 _ hne (hsync _ (List.prefix_append _ _) hne)
    unfold fileAt
    rw [this, hcur, hfile]
  refine ⟨src, o1, fun id len hid hlen => ?_⟩
  obtain ⟨r, r1, r2⟩ := o2 id len hid hlen
  exact ⟨r, r1, says_labels hls r2⟩

/-- **C89**, partial: whatever a power loss leaves of a finished archive, opening it fails, or every stripe reads as it was fetched or
cannot be read; under the assumptions of C23 on the bytes that are left. -/
theorem C89_archive_partial (hc : c.Ok) (ht : Tree f0.cur) (hb : f0.cur base = some .dir)
    (h : ArchRun c base (St.init c (objects base f0.cur)) f0 ls st f) (hd : st.phase = .done)
    (hl : (c.P.encMap (entries c.count st.hashes)).length < 2 ^ 64) (hn : NoCollision c st) {fs : FS} (_hp : PowerLoss f fs)
    (he : Honest c st (objects base fs)) :
    Unopenable c.P c.kek (objects base fs) ∨ PresentsOrFails c ls c.kek (objects base fs) := by
  obtain ⟨hm, ls', hr, hls⟩ := h.down.mirror hc ht hb
  obtain ⟨src, o1, o2⟩ := presents_of_holds hc hr hd hl hn (objs := st.store) fun _ _ _ hs => hs
  obtain ⟨src', t1, t2⟩ := C23_tamper hc hr hd hl he
  rw [o1] at t1
  cases t1
  rcases t2 with t2 | ⟨t2, t3⟩
  · exact .inl t2
  · refine .inr ⟨src, t2, fun id len hid hlen => ?_⟩
    obtain ⟨r, r1, r2⟩ := o2 id len hid hlen
    rcases t3 id len with e | e
    · exact .inl e
    · exact .inr ⟨r, e.trans r1, says_labels hls r2⟩

/-- **C89** Archiving into a directory does not endanger what was certain outside it. -/
theorem C89_archive_others (hP : c.P.Lawful) {s0 : St} (h : ArchRun c base s0 f0 ls st f) (hq : ¬ base <+: q) (hx : f0.cur q ≠ none)
    (hc : f0.Certain q) {fs : FS} (hl : PowerLoss f fs) : fs q = f0.cur q := by
  obtain ⟨a1, a2⟩ := h.certain hP hq hc
  rw [hl.1 q (by rw [a1]; exact hx) a2, a1]

/-! ### Examples -/

/-- An empty directory `/b`, whose name is certain. -/
def demoFiles : Files := ⟨demoFs, fun p => p = [['b']], fun _ => false⟩

theorem demo_fresh {x : Path} (hx : x ≠ []) : demoFiles.cur ([['b']] ++ x) = none ∧ demoFiles.named ([['b']] ++ x) = false := by
  have h1 : [['b']] ++ x ≠ [['b']] := fun e => hx (List.append_cancel_left (as := [['b']]) (by rw [List.append_nil]; exact e))
  exact ⟨by simp only [demoFiles, demoFs]; rw [if_neg]; rintro (e | e) <;> simp_all, by simp only [demoFiles]; exact decide_eq_false h1⟩

/-- `C89_init`: a first `init-metadata` in `/b`. -/
example : ∃ fs, PowerLoss (demoFiles.calls (initCalls demoFiles false [['b'], ['m']] 4 [1, 2, 3, 4]).1) fs ∧ fs [['b'], ['m']] = some (.file [1, 2, 3, 4]) ∧
    (initCalls demoFiles false [['b'], ['m']] 4 [1, 2, 3, 4]).1 =
      [.create [['b'], ['m']], .setLen [['b'], ['m']] 4, .syncFile [['b'], ['m']], .syncDir [['b']], .write [['b'], ['m']] 0 [1, 2, 3, 4], .syncFile [['b'], ['m']]] := by
  have hd : demoFiles.Named [['b']] := by
    intro q hq hqp
    have : q = [['b']] := by
      cases q with
      | nil => exact absurd rfl hq
      | cons a q =>
        rw [List.cons_prefix_cons, List.prefix_nil] at hqp
        rw [hqp.1, hqp.2]
    subst this; rfl
  obtain ⟨b, h1, h2, h3⟩ := C89_init (s := demoFiles) (p := [['b'], ['m']]) (bare := false) (minimum := 4) (buf := [1, 2, 3, 4]) (by simp) hd
    (.inl (by decide)) (by decide) (bare_powerLoss _)
  refine ⟨_, bare_powerLoss _, ?_, by decide⟩
  rw [h1]
  have h3 := h3 (by decide)
  have hb : demoFiles.bytes [['b'], ['m']] = [] := by decide
  rw [hb] at h3
  have := List.take_append_drop 4 b
  rw [show b.take 4 = [1, 2, 3, 4] from h2, show b.drop 4 = [] from h3] at this
  rw [← this]; rfl

/-- The hypotheses of `C89_false_init`, `C89_false_bare` and `C89_false_files`. -/
example : ([['b'], ['m']] : Path) ≠ [] ∧ Tree demoFiles.cur ∧ demoFiles.cur ([['b'], ['m']] : Path).dropLast = some .dir ∧
    demoFiles.cur [['b'], ['m']] = none ∧ demoFiles.named [['b'], ['m']] = false ∧
    Makes [['b'], ['m']] (exportCalls [['b'], ['m']] 6 [(3, [4, 5, 6]), (0, [1, 2, 3])]) ∧
    (demoFiles.calls (exportCalls [['b'], ['m']] 6 [(3, [4, 5, 6]), (0, [1, 2, 3])])).cur [['b'], ['m']] = some (.file [1, 2, 3, 4, 5, 6]) :=
  ⟨by simp, demoFs_tree, by decide, by decide, by decide, .inl ⟨_, _, rfl⟩, by decide⟩

/-- `C89_others`: a second file in `/b`. -/
example : let s := demoFiles.calls [.create [['b'], ['x']], .write [['b'], ['x']] 0 [9], .syncFile [['b'], ['x']], .syncDir [['b']]]
    s.cur [['b'], ['x']] = some (.file [9]) ∧ s.Certain [['b'], ['x']] ∧ ¬ ([['b'], ['m']] : Path) <+: [['b'], ['x']] := by
  refine ⟨by decide, ⟨fun q hq hqp => ?_, fun _ _ => by decide⟩, by decide⟩
  have : q = [['b']] ∨ q = [['b'], ['x']] := by
    cases q with
    | nil => exact absurd rfl hq
    | cons a q =>
      rw [List.cons_prefix_cons] at hqp
      cases q with
      | nil => left; rw [hqp.1]
      | cons a' q => right; obtain ⟨rfl, h⟩ := hqp; rw [List.cons_prefix_cons, List.prefix_nil] at h; rw [h.1, h.2]
  rcases this with rfl | rfl <;> decide

/-- A finished archive in `/b` that a power loss takes away; and one that has been synced. -/
example : ∃ ls st f, ArchRun (twCfg 0) [['b']] (St.init (twCfg 0) (objects [['b']] demoFiles.cur)) demoFiles ls st f ∧ st.phase = .done ∧
    (∃ fs, PowerLoss f fs ∧ Honest (twCfg 0) st (objects [['b']] fs) ∧ Unopenable (twCfg 0).P (twCfg 0).kek (objects [['b']] fs)) ∧
    Presents (twCfg 0) ls (twCfg 0).kek (objects [['b']] f.cur) := by
  obtain ⟨ls, st, fs, h1, h2, h3, h4⟩ := demo_archive 0
  obtain ⟨f, rfl, hr⟩ := ArchRun.up (f0 := demoFiles) h1 rfl
  have htf := (h1.mirror (twCfg_ok 0) demoFs_tree (by simp [demoFs])).1.tree
  have hnone : ∀ n, objects [['b']] (bare f) n = none := by
    intro n
    by_cases hn : Plain n
    · rw [objects_plain (bare_tree htf) hn]
      unfold fileAt
      rw [bare_fresh (by simp) (hr.fresh toyQ_lawful (demo_fresh hn.ne_nil).2)]
    · unfold objects; rw [if_neg hn]
  refine ⟨ls, st, f, hr, h2, ⟨bare f, bare_powerLoss f, ⟨?_, ?_, ?_, ?_⟩, ?_⟩, ?_⟩
  · intro b m pt e; rw [hnone] at e; cases e
  · intro b m e; rw [hnone] at e; cases e
  · intro b m e; rw [hnone] at e; cases e
  · intro n d o e; rw [hnone] at e; cases e
  · unfold Unopenable openArchive; simp [hnone]
  · obtain ⟨-, ls', hr', hls⟩ := h1.mirror (twCfg_ok 0) demoFs_tree (by simp [demoFs])
    have hl : ∀ id ok buf, Lab.fetched id ok buf ∈ ls' → buf = demoBuf ∧ id = 0 := fun id ok buf hm => h4 _ _ _ ((hls _ (by simp)).1 hm)
    refine C89_archive_synced_partial (f0 := demoFiles) (f' := ⟨f.cur, fun _ => true, fun _ => true⟩) (twCfg_ok 0) demoFs_tree (by decide) hr h2 ?_
      (fun o o' ho ho' _ => by rw [tw_only hr' hl ho, tw_only hr' hl ho']) rfl (fun _ _ _ => ⟨fun _ _ _ => rfl, fun _ _ => rfl⟩)
      ⟨fun _ _ _ => rfl, fun _ b hb _ => ⟨b, hb⟩⟩ htf
    show (toyQ.encMap (entries 1 st.hashes)).length < _
    rw [h3]
    simp only [toyQ, toyP, encEntries, encSpec, List.length_append, List.length_cons, List.length_take, le_length, List.length_nil]
    omega

end Verif.Durable
