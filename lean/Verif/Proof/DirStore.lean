import Verif.Model.DirStore
import Verif.Spec.DirStore
import Verif.Proof.Rearchive

/-! # Files, names and directories -/

namespace Verif.Dir
open Verif Verif.Disk Verif.Archive

/-! ### Names -/

/-- A name that is a path of ordinary components. -/
def Plain (n : Name) : Prop := ∀ p ∈ split n, p ≠ [] ∧ p ≠ ['.'] ∧ p ≠ dotdot

theorem split_ne_nil (n : List Char) : split n ≠ [] := by
  cases n with
  | nil => simp [split]
  | cons c cs =>
    simp only [split]
    split
    · simp
    · split <;> simp

/-- The text made of parts. -/
def join : List Name → List Char
  | [] => []
  | [p] => p
  | p :: q :: ps => p ++ '/' :: join (q :: ps)

theorem join_split (n : List Char) : join (split n) = n := by
  induction n with
  | nil => rfl
  | cons c cs ih =>
    simp only [split]
    split
    · rename_i h
      cases hs : split cs with
      | nil => exact absurd hs (split_ne_nil cs)
      | cons a t => rw [hs] at ih; simp only [join]; rw [ih, h]; rfl
    · cases hs : split cs with
      | nil => exact absurd hs (split_ne_nil cs)
      | cons a t =>
        rw [hs] at ih
        cases t with
        | nil => simp only [join] at ih ⊢; rw [ih]
        | cons b t => simp only [join] at ih ⊢; rw [List.cons_append, ih]

theorem split_inj {n n' : List Char} (h : split n = split n') : n = n' := by rw [← join_split n, h, join_split]

theorem Plain.parts {n : Name} (h : Plain n) : Dir.parts n = split n := by
  unfold Dir.parts
  rw [List.filter_eq_self]
  intro p hp
  have := h p hp
  simp [this.1, this.2.1]

theorem Plain.ne_nil {n : Name} (h : Plain n) : Dir.parts n ≠ [] := by rw [h.parts]; exact split_ne_nil n

theorem Plain.parts_inj {n n' : Name} (h : Plain n) (h' : Plain n') (e : Dir.parts n = Dir.parts n') : n = n' := by
  rw [h.parts, h'.parts] at e; exact split_inj e

theorem Plain.no_dotdot {n : Name} (h : Plain n) : dotdot ∉ Dir.parts n := by
  rw [h.parts]; intro hm; exact (h _ hm).2.2 rfl

theorem Plain.start {n : Name} (h : Plain n) (base : Path) : Dir.start base n = base := by
  unfold Dir.start
  rw [if_neg]
  intro e
  cases n with
  | nil => simp at e
  | cons c cs =>
    simp only [List.head?_cons, Option.some.injEq] at e
    subst e
    have := h [] (by simp [split])
    exact this.1 rfl

theorem Plain.ends {n : Name} (h : Plain n) : endsInSlash n = false := by
  unfold endsInSlash
  split
  · rename_i p hp
    have := h p (List.mem_of_getLast? hp)
    simp [this.1, this.2.1]
  · rename_i hp
    rw [List.getLast?_eq_none_iff] at hp
    exact absurd hp (split_ne_nil n)

theorem Plain.last {n : Name} (h : Plain n) : ∃ l, (Dir.parts n).getLast? = some l ∧ l ≠ dotdot ∧ (Dir.parts n).dropLast ++ [l] = Dir.parts n := by
  have hne := h.ne_nil
  refine ⟨(Dir.parts n).getLast hne, List.getLast?_eq_some_getLast hne, ?_, List.dropLast_append_getLast hne⟩
  intro e
  exact h.no_dotdot (e ▸ List.getLast_mem hne)

/-! ### Directories -/

/-- A file system is a tree. -/
structure Tree (fs : FS) : Prop where
  root : fs [] = some .dir
  parent : ∀ p c, fs (p ++ [c]) ≠ none → fs p = some .dir

theorem Tree.up {fs : FS} (h : Tree fs) (p q : Path) (hq : q ≠ []) (he : fs (p ++ q) ≠ none) : fs p = some .dir := by
  induction q generalizing p with
  | nil => exact absurd rfl hq
  | cons c q ih =>
    cases q with
    | nil => exact h.parent p c he
    | cons c' q =>
      have := ih (p ++ [c]) (by simp) (by simpa using he)
      exact h.parent p c (by rw [this]; simp)

theorem Tree.upd {fs : FS} (h : Tree fs) {p : Path} {c : Name} {v : Node} (hp : fs p = some .dir) (hv : v = .dir ∨ fs (p ++ [c]) ≠ some .dir) :
    Tree (upd fs (p ++ [c]) (some v)) := by
  refine ⟨?_, fun q d hq => ?_⟩
  · rw [upd_ne _ _ (by simp)]; exact h.root
  · by_cases hd : q = p ++ [c]
    · subst hd
      rw [upd_ne _ _ (by intro e; have := congrArg List.length e; simp at this)] at hq
      have hdir := h.parent _ _ hq
      rcases hv with rfl | hv
      · simp
      · exact absurd hdir hv
    · rw [upd_ne _ _ hd]
      by_cases he : q ++ [d] = p ++ [c]
      · obtain ⟨rfl, -⟩ := List.append_inj' he rfl
        exact hp
      · rw [upd_ne _ _ he] at hq
        exact h.parent q d hq

/-- The bytes of the file at a place. -/
def fileAt (fs : FS) (p : Path) : Option Bytes := match fs p with
  | some (.file b) => some b
  | _ => none

theorem walk_tree {fs : FS} (h : Tree fs) (ps : List Name) (hd : dotdot ∉ ps) (cur : Path) :
    walk fs cur ps = if fs (cur ++ ps) = some .dir then some (cur ++ ps) else none := by
  induction ps generalizing cur with
  | nil =>
    simp only [walk, List.append_nil]
    cases hc : fs cur with
    | none => simp
    | some v => cases v <;> simp
  | cons c ps ih =>
    have hc : c ≠ dotdot := fun e => hd (e ▸ List.mem_cons_self)
    have := ih (fun hm => hd (List.mem_cons_of_mem _ hm)) (cur ++ [c])
    simp only [List.append_assoc, List.singleton_append] at this
    simp only [walk, if_neg hc, this]
    cases hcur : fs cur with
    | some v =>
      cases v with
      | dir => rfl
      | file b =>
        show none = _
        rw [if_neg]
        intro e
        have := h.up cur (c :: ps) (by simp) (by rw [e]; simp)
        rw [hcur] at this; cases this
    | none =>
      show none = _
      rw [if_neg]
      intro e
      have := h.up cur (c :: ps) (by simp) (by rw [e]; simp)
      rw [hcur] at this; cases this

theorem tryGet_plain {fs : FS} {base : Path} {n : Name} (h : Tree fs) (hn : Plain n) : tryGet base fs n false = fileAt fs (base ++ parts n) := by
  obtain ⟨l, h1, h2, h3⟩ := hn.last
  have hd : dotdot ∉ (parts n).dropLast := fun hm => hn.no_dotdot (List.mem_of_mem_dropLast hm)
  unfold tryGet
  simp only [Bool.false_eq_true, if_false, h1, hn.ends, hn.start, h2, decide_false, Bool.or_self, walk_tree h _ hd]
  by_cases hdir : fs (base ++ (parts n).dropLast) = some .dir
  · simp only [if_pos hdir, List.append_assoc, h3]; rfl
  · simp only [if_neg hdir]
    unfold fileAt
    split
    · rename_i b hb
      have := h.parent (base ++ (parts n).dropLast) l (by rw [List.append_assoc, h3, hb]; simp)
      exact absurd this hdir
    · rfl

/-- Making directories: only new directories appear, below where it began. -/
theorem mkdirs_spec (ps : List Name) (hd : dotdot ∉ ps) (budget : Option Nat) {fs : FS} {cur : Path} (h : Tree fs) (hc : fs cur = some .dir) :
    Tree (mkdirs budget fs cur ps).1 ∧
    (∀ p, (mkdirs budget fs cur ps).1 p = fs p ∨ fs p = none ∧ (mkdirs budget fs cur ps).1 p = some .dir ∧ cur <+: p ∧ p <+: cur ++ ps) ∧
    (∀ p, (mkdirs budget fs cur ps).2 = some p → p = cur ++ ps ∧ (mkdirs budget fs cur ps).1 p = some .dir) ∧
    (budget = none → (∀ k, ∀ b, fs (cur ++ ps.take k) ≠ some (.file b)) → (mkdirs budget fs cur ps).2 = some (cur ++ ps)) := by
  induction ps generalizing budget fs cur with
  | nil => exact ⟨h, fun _ => .inl rfl, fun p e => by cases e; exact ⟨by simp, hc⟩, fun _ _ => by simp [mkdirs]⟩
  | cons c ps ih =>
    have hcd : c ≠ dotdot := fun e => hd (e ▸ List.mem_cons_self)
    have hps : dotdot ∉ ps := fun hm => hd (List.mem_cons_of_mem _ hm)
    simp only [mkdirs, if_neg hcd]
    have pre : ∀ p, cur ++ [c] <+: p → cur <+: p := fun p hp => (List.prefix_append _ _).trans hp
    cases hn : fs (cur ++ [c]) with
    | some v =>
      cases v with
      | dir =>
        obtain ⟨a1, a2, a3, a4⟩ := ih hps budget h hn
        simp only [List.append_assoc, List.singleton_append] at a2 a3 a4
        refine ⟨a1, fun p => (a2 p).imp_right fun ⟨x, y, z, w⟩ => ⟨x, y, pre p z, w⟩, a3, fun hb hf => a4 hb fun k b => ?_⟩
        have := hf (k + 1) b
        simpa using this
      | file b =>
        refine ⟨h, fun _ => .inl rfl, by simp, fun _ hf => ?_⟩
        have := hf 1 b
        simp [hn] at this
    | none =>
      simp only
      by_cases hb0 : budget = some 0
      · rw [if_pos hb0]
        refine ⟨h, fun _ => .inl rfl, by simp, fun hb => by rw [hb] at hb0; cases hb0⟩
      · rw [if_neg hb0]
        have ht := h.upd (c := c) (v := .dir) hc (.inl rfl)
        obtain ⟨a1, a2, a3, a4⟩ := ih hps (budget.map (· - 1)) (cur := cur ++ [c]) ht (upd_same _ _ _)
        simp only [List.append_assoc, List.singleton_append] at a2 a3 a4
        refine ⟨a1, fun p => ?_, a3, fun hb hf => a4 (by rw [hb]; rfl) fun k b => ?_⟩
        · by_cases hp : p = cur ++ [c]
          · subst hp
            right
            refine ⟨hn, ?_, List.prefix_append _ _, ?_⟩
            · rcases a2 (cur ++ [c]) with e | ⟨-, e, -⟩
              · rw [e]; simp
              · exact e
            · exact ⟨ps, by simp⟩
          · rcases a2 p with e | ⟨x, y, z, w⟩
            · rw [upd_ne _ _ hp] at e; exact .inl e
            · rw [upd_ne _ _ hp] at x
              exact .inr ⟨x, y, pre p z, w⟩
        · by_cases hk : cur ++ c :: ps.take k = cur ++ [c]
          · rw [hk]; simp
          · rw [upd_ne _ _ hk]
            have := hf (k + 1) b
            simpa using this

/-- What a put under a plain name does. -/
theorem tryPut_plain {fs : FS} {base : Path} {n : Name} {d : Bytes} {f : Fault} (h : Tree fs) (hb : fs base = some .dir) (hn : Plain n) :
    Tree (tryPut base fs n d f).1 ∧ (tryPut base fs n d f).1 base = some .dir ∧
    (∀ p, ¬ (base <+: p ∧ p <+: base ++ parts n) → (tryPut base fs n d f).1 p = fs p) ∧
    (∀ p, p ≠ base ++ parts n → fileAt (tryPut base fs n d f).1 p = fileAt fs p) ∧
    ((tryPut base fs n d f).2 = true → fileAt (tryPut base fs n d f).1 (base ++ parts n) = some d) ∧
    ((tryPut base fs n d f).2 = false → fileAt (tryPut base fs n d f).1 (base ++ parts n) = fileAt fs (base ++ parts n) ∨
      ∃ k, fileAt (tryPut base fs n d f).1 (base ++ parts n) = some (d.take k)) := by
  obtain ⟨l, h1, h2, h3⟩ := hn.last
  have hd : dotdot ∉ (parts n).dropLast := fun hm => hn.no_dotdot (List.mem_of_mem_dropLast hm)
  obtain ⟨m1, m2, m3, -⟩ := mkdirs_spec (parts n).dropLast hd f.budget h hb
  have mfile : ∀ p, fileAt (mkdirs f.budget fs base (parts n).dropLast).1 p = fileAt fs p := by
    intro p
    unfold fileAt
    rcases m2 p with e | ⟨e1, e2, -⟩
    · rw [e]
    · rw [e1, e2]
  have pre : base ++ (parts n).dropLast <+: base ++ parts n := ⟨[l], by rw [List.append_assoc, h3]⟩
  have mout : ∀ p, ¬ (base <+: p ∧ p <+: base ++ parts n) → (mkdirs f.budget fs base (parts n).dropLast).1 p = fs p := by
    intro p hp
    rcases m2 p with e | ⟨-, -, e1, e2⟩
    · exact e
    · exact absurd ⟨e1, e2.trans pre⟩ hp
  have mbase : (mkdirs f.budget fs base (parts n).dropLast).1 base = some .dir := by
    rcases m2 base with e | ⟨e, -⟩
    · rw [e]; exact hb
    · rw [hb] at e; cases e
  unfold tryPut
  simp only [h1, hn.start, hn.ends, h2, decide_false, Bool.or_self, Bool.false_eq_true, if_false]
  generalize hm : mkdirs f.budget fs base (parts n).dropLast = r at *
  obtain ⟨fs', o⟩ := r
  cases o with
  | none => exact ⟨m1, mbase, mout, fun p _ => mfile p, by simp, fun _ => .inl (mfile _)⟩
  | some p =>
    obtain ⟨hp, hpd⟩ := m3 p rfl
    subst hp
    simp only [List.append_assoc, h3]
    have hne : base ≠ base ++ parts n := by
      intro e
      exact hn.ne_nil (List.append_cancel_left (as := base) (by rw [List.append_nil]; exact e.symm))
    have upd_all : ∀ b : Bytes, fs' (base ++ parts n) ≠ some .dir →
        Tree (upd fs' (base ++ parts n) (some (.file b))) ∧ upd fs' (base ++ parts n) (some (.file b)) base = some .dir ∧
        (∀ p, ¬ (base <+: p ∧ p <+: base ++ parts n) → upd fs' (base ++ parts n) (some (.file b)) p = fs p) ∧
        (∀ p, p ≠ base ++ parts n → fileAt (upd fs' (base ++ parts n) (some (.file b))) p = fileAt fs p) ∧
        fileAt (upd fs' (base ++ parts n) (some (.file b))) (base ++ parts n) = some b := by
      intro b hnd
      refine ⟨?_, ?_, fun p hp => ?_, fun p hp => ?_, by simp [fileAt]⟩
      · have := m1.upd (c := l) (v := .file b) hpd (.inr (by rw [List.append_assoc, h3]; exact hnd))
        rw [List.append_assoc, h3] at this; exact this
      · rw [upd_ne _ _ hne]; exact mbase
      · rw [upd_ne _ _ (by rintro rfl; exact hp ⟨List.prefix_append _ _, List.prefix_refl _⟩)]; exact mout p hp
      · unfold fileAt; rw [upd_ne _ _ hp]; exact mfile p
    unfold write
    split
    · exact ⟨m1, mbase, mout, fun p _ => mfile p, by simp, fun _ => .inl (mfile _)⟩
    · rename_i hnd
      split
      · exact ⟨m1, mbase, mout, fun p _ => mfile p, by simp, fun _ => .inl (mfile _)⟩
      · rename_i k
        obtain ⟨u1, u2, u3, u4, u5⟩ := upd_all (d.take k) hnd
        exact ⟨u1, u2, u3, u4, by simp, fun _ => .inr ⟨k, u5⟩⟩
      · obtain ⟨u1, u2, u3, u4, u5⟩ := upd_all d hnd
        exact ⟨u1, u2, u3, u4, fun _ => u5, by simp⟩

/-- A put leaves no directory in the object's place. -/
theorem tryPut_place {fs : FS} {base : Path} {n : Name} {d : Bytes} {f : Fault} (h : Tree fs) (hb : fs base = some .dir) (hn : Plain n)
    (hp : fs (base ++ parts n) ≠ some .dir) : (tryPut base fs n d f).1 (base ++ parts n) ≠ some .dir := by
  obtain ⟨l, h1, h2, h3⟩ := hn.last
  have hd : dotdot ∉ (parts n).dropLast := fun hm => hn.no_dotdot (List.mem_of_mem_dropLast hm)
  obtain ⟨m1, m2, m3, -⟩ := mkdirs_spec (parts n).dropLast hd f.budget h hb
  have hm : (mkdirs f.budget fs base (parts n).dropLast).1 (base ++ parts n) ≠ some .dir := by
    rcases m2 (base ++ parts n) with e | ⟨-, -, -, e⟩
    · rw [e]; exact hp
    · have := e.length_le
      rw [← h3] at this
      simp at this
      omega
  unfold tryPut
  simp only [h1, hn.start, hn.ends, h2, decide_false, Bool.or_self, Bool.false_eq_true, if_false]
  generalize hr : mkdirs f.budget fs base (parts n).dropLast = r at *
  obtain ⟨fs', o⟩ := r
  cases o with
  | none => exact hm
  | some p =>
    obtain ⟨rfl, -⟩ := m3 p rfl
    simp only [List.append_assoc, h3]
    unfold write
    split
    · exact hm
    · split
      · exact hm
      · simp
      · simp

/-- Nothing stands in the way of an object: no file where it needs a directory, no directory in its own place. -/
structure Room (base : Path) (fs : FS) (n : Name) : Prop where
  way : ∀ k b, k < (parts n).length → fs (base ++ (parts n).take k) ≠ some (.file b)
  place : fs (base ++ parts n) ≠ some .dir

/-- A put with nothing in the way that meets no fault succeeds. -/
theorem tryPut_room {fs : FS} {base : Path} {n : Name} {d : Bytes} (h : Tree fs) (hb : fs base = some .dir) (hn : Plain n) (hr : Room base fs n) :
    (tryPut base fs n d .none).2 = true := by
  obtain ⟨l, h1, h2, h3⟩ := hn.last
  have hd : dotdot ∉ (parts n).dropLast := fun hm => hn.no_dotdot (List.mem_of_mem_dropLast hm)
  obtain ⟨m1, m2, m3, m4⟩ := mkdirs_spec (parts n).dropLast hd none h hb
  have hlen : (parts n).length ≠ 0 := by rw [Ne, List.length_eq_zero_iff]; exact hn.ne_nil
  have m5 := m4 rfl fun k b => by
    rw [List.dropLast_eq_take, List.take_take]
    exact hr.way _ b (by omega)
  have hm : (mkdirs none fs base (parts n).dropLast).1 (base ++ parts n) ≠ some .dir := by
    rcases m2 (base ++ parts n) with e | ⟨-, -, -, e⟩
    · rw [e]; exact hr.place
    · have := e.length_le
      rw [← h3] at this
      simp at this
      omega
  unfold tryPut
  simp only [h1, hn.start, hn.ends, h2, decide_false, Bool.or_self, Bool.false_eq_true, if_false, Fault.budget]
  generalize hr' : mkdirs none fs base (parts n).dropLast = r at *
  obtain ⟨fs', o⟩ := r
  simp only at m5
  subst m5
  simp only [List.append_assoc, h3]
  unfold write
  split
  · rename_i e; exact absurd e hm
  · rfl

/-- A put leaves room for the objects it does not collide with. -/
theorem tryPut_keeps_room {fs : FS} {base : Path} {n n' : Name} {d : Bytes} {f : Fault} (h : Tree fs) (hb : fs base = some .dir) (hn : Plain n)
    (hr : Room base fs n') (h1 : n = n' ∨ ¬ parts n <+: parts n' ∧ ¬ parts n' <+: parts n) : Room base (tryPut base fs n d f).1 n' := by
  obtain ⟨-, -, p3, p4, -⟩ := tryPut_plain (d := d) (f := f) h hb hn
  refine ⟨fun k b hk e => ?_, ?_⟩
  · have hne : base ++ (parts n').take k ≠ base ++ parts n := by
      intro e
      have e := List.append_cancel_left e
      rcases h1 with rfl | h1
      · have := congrArg List.length e; rw [List.length_take] at this; omega
      · exact h1.1 (e ▸ List.take_prefix _ _)
    have := p4 _ hne
    unfold fileAt at this
    rw [e] at this
    cases hf : fs (base ++ (parts n').take k) with
    | none => rw [hf] at this; simp at this
    | some v =>
      cases v with
      | dir => rw [hf] at this; simp at this
      | file b' => exact hr.way k b' hk hf
  · rcases h1 with rfl | h1
    · exact tryPut_place h hb hn hr.place
    · rw [p3 _ (fun e => h1.2 ?_)]
      · exact hr.place
      · obtain ⟨t, ht⟩ := e.2
        rw [List.append_assoc] at ht
        exact ⟨t, List.append_cancel_left ht⟩

end Verif.Dir
