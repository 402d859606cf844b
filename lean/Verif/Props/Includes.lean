import Verif.Spec.Config

/-! # C46: includes only add, never override -/

namespace Verif.Config

/-! ## Tables -/

theorem get_insert (t : Tbl) (k : String) (v : Val) (h : t.get k = none) (x : String) :
    (t.insert k v).get x = if x = k then some v else t.get x := by
  induction t with
  | nil => cases v <;> simp [Tbl.insert, Tbl.get]
  | leaf k' a r ih =>
    simp only [Tbl.get] at h
    split at h
    · cases h
    · rename_i hk
      simp only [Tbl.insert, Tbl.get, ih h]
      by_cases e : x = k'
      · subst e; simp [Ne.symm hk]
      · simp [e]
  | sub k' t r _ ih =>
    simp only [Tbl.get] at h
    split at h
    · cases h
    · rename_i hk
      simp only [Tbl.insert, Tbl.get, ih h]
      by_cases e : x = k'
      · subst e; simp [Ne.symm hk]
      · simp [e]

theorem get_setTable (t : Tbl) (k : String) (b m : Tbl) (h : t.get k = some (.table b)) (x : String) :
    (t.setTable k m).get x = if x = k then some (.table m) else t.get x := by
  induction t with
  | nil => cases h
  | leaf k' a r ih =>
    simp only [Tbl.get] at h
    split at h
    · cases h
    · rename_i hk
      simp only [Tbl.setTable, Tbl.get, ih h]
      by_cases e : x = k'
      · subst e; simp [Ne.symm hk]
      · simp [e]
  | sub k' t r _ ih =>
    simp only [Tbl.get] at h
    simp only [Tbl.setTable]
    split at h
    · rename_i hk; subst hk
      rw [if_pos rfl]
      simp only [Tbl.get]
      by_cases e : x = k <;> simp [e]
    · rename_i hk
      rw [if_neg hk]
      simp only [Tbl.get, ih h]
      by_cases e : x = k'
      · subst e; simp [Ne.symm hk]
      · simp [e]

theorem get_remove (t : Tbl) (k : String) (hw : t.Wf) (x : String) : (t.remove k).get x = if x = k then none else t.get x := by
  induction t with
  | nil => simp [Tbl.remove, Tbl.get]
  | leaf k' a r ih =>
    obtain ⟨h1, h2⟩ := hw
    simp only [Tbl.remove]
    split
    · rename_i e; subst e
      by_cases e : x = k
      · subst e; simp [h1]
      · simp [e, Tbl.get]
    · rename_i e
      simp only [Tbl.get, ih h2]
      by_cases e' : x = k'
      · subst e'; simp [Ne.symm e]
      · simp [e']
  | sub k' t r _ ih =>
    obtain ⟨h1, _, h2⟩ := hw
    simp only [Tbl.remove]
    split
    · rename_i e; subst e
      by_cases e : x = k
      · subst e; simp [h1]
      · simp [e, Tbl.get]
    · rename_i e
      simp only [Tbl.get, ih h2]
      by_cases e' : x = k'
      · subst e'; simp [Ne.symm e]
      · simp [e']

/-- Well-formed values. -/
def Val.Wf : Val → Prop
  | .atom _ => True
  | .table t => t.Wf

theorem wf_insert (t : Tbl) (k : String) (v : Val) (h : t.get k = none) (hw : t.Wf) (hv : v.Wf) : (t.insert k v).Wf := by
  induction t with
  | nil => cases v <;> simp_all [Tbl.insert, Tbl.Wf, Tbl.get, Val.Wf]
  | leaf k' a r ih =>
    simp only [Tbl.get] at h
    split at h
    · cases h
    · rename_i hk
      exact ⟨by rw [get_insert _ _ _ h, if_neg (Ne.symm hk)]; exact hw.1, ih h hw.2⟩
  | sub k' t r _ ih =>
    simp only [Tbl.get] at h
    split at h
    · cases h
    · rename_i hk
      exact ⟨by rw [get_insert _ _ _ h, if_neg (Ne.symm hk)]; exact hw.1, hw.2.1, ih h hw.2.2⟩

theorem wf_setTable (t : Tbl) (k : String) (b m : Tbl) (h : t.get k = some (.table b)) (hw : t.Wf) (hm : m.Wf) :
    (t.setTable k m).Wf := by
  induction t with
  | nil => cases h
  | leaf k' a r ih =>
    simp only [Tbl.get] at h
    split at h
    · cases h
    · rename_i hk
      exact ⟨by rw [get_setTable _ _ _ _ h, if_neg (Ne.symm hk)]; exact hw.1, ih h hw.2⟩
  | sub k' t r _ ih =>
    simp only [Tbl.get] at h
    simp only [Tbl.setTable]
    split at h
    · rename_i hk; subst hk
      rw [if_pos rfl]; exact ⟨hw.1, hm, hw.2.2⟩
    · rename_i hk
      rw [if_neg hk]
      exact ⟨by rw [get_setTable _ _ _ _ h, if_neg (Ne.symm hk)]; exact hw.1, hw.2.1, ih h hw.2.2⟩

theorem wf_remove (t : Tbl) (k : String) (hw : t.Wf) : (t.remove k).Wf := by
  induction t with
  | nil => exact hw
  | leaf k' a r ih =>
    simp only [Tbl.remove]
    split
    · exact hw.2
    · rename_i e
      exact ⟨by rw [get_remove _ _ hw.2, if_neg (Ne.symm e)]; exact hw.1, ih hw.2⟩
  | sub k' t r _ ih =>
    simp only [Tbl.remove]
    split
    · exact hw.2.2
    · rename_i e
      exact ⟨by rw [get_remove _ _ hw.2.2, if_neg (Ne.symm e)]; exact hw.1, hw.2.1, ih hw.2.2⟩

theorem wf_get {t : Tbl} {k : String} {b : Tbl} (hw : t.Wf) (h : t.get k = some (.table b)) : b.Wf := by
  induction t with
  | nil => cases h
  | leaf k' a r ih =>
    simp only [Tbl.get] at h
    split at h
    · cases h
    · exact ih hw.2 h
  | sub k' t r _ ih =>
    simp only [Tbl.get] at h
    split at h
    · cases h; exact hw.2.1
    · exact ih hw.2.2 h

/-! ## Settings -/

/-- Settings inside a value. -/
def within : Val → List String → Option Setting
  | .atom a, p => if p = [] then some (.value a) else none
  | .table t, p => settings t p

theorem settings_cons (t : Tbl) (k : String) (p : List String) : settings t (k :: p) = (t.get k).bind (within · p) := by
  rw [settings]
  cases t.get k with
  | none => rfl
  | some v => cases v <;> rfl

theorem settings_nil (t : Tbl) : settings t [] = some .table := rfl

/-- Two settings at one key that do not clash. -/
def Ok2 (x y : Option Setting) : Prop := ∀ a b, x = some a → y = some b → a = .table ∧ b = .table

theorem compatible_iff (s t : Tbl) : Compatible s t ↔ ∀ p, Ok2 (settings s p) (settings t p) := Iff.rfl

theorem compatible_keys (s t : Tbl) :
    Compatible s t ↔ ∀ k p, Ok2 ((s.get k).bind (within · p)) ((t.get k).bind (within · p)) := by
  rw [compatible_iff]
  constructor
  · intro h k p; have := h (k :: p); rwa [settings_cons, settings_cons] at this
  · intro h p
    cases p with
    | nil => intro a b ha hb; rw [settings_nil] at ha hb; cases ha; cases hb; exact ⟨rfl, rfl⟩
    | cons k p => rw [settings_cons, settings_cons]; exact h k p

theorem ok2_none (x : Option Setting) : Ok2 x none := fun _ _ _ h => by cases h
theorem none_ok2 (x : Option Setting) : Ok2 none x := fun _ _ h => by cases h

/-- What `mergeTables` must do. -/
def Merges (base add : Tbl) (r : Except IErr Tbl) : Prop :=
  (Compatible base add → ∃ m, r = .ok m) ∧
  ∀ m, r = .ok m → Compatible base add ∧ m.Wf ∧ ∀ p, settings m p = (settings base p).or (settings add p)

theorem within_root (v : Val) : ∃ x, within v [] = some x ∧ (∀ a, v = .atom a → x = .value a) ∧ (∀ t, v = .table t → x = .table) := by
  cases v with
  | atom a => exact ⟨.value a, rfl, fun b h => (by cases h; rfl), fun t h => (nomatch h)⟩
  | table t => exact ⟨.table, rfl, fun b h => (nomatch h), fun _ _ => rfl⟩

/-- Adding a key the base has not, then the rest. -/
theorem merges_insert {base rest full : Tbl} {k : String} {v : Val} {r : Except IErr Tbl} (hb : base.get k = none)
    (hr : rest.get k = none) (hfull : ∀ x, full.get x = if x = k then some v else rest.get x)
    (h : Merges (base.insert k v) rest r) : Merges base full r := by
  have hg := get_insert base k v hb
  have hC : Compatible base full ↔ Compatible (base.insert k v) rest := by
    rw [compatible_keys, compatible_keys]
    constructor
    · intro h x p
      rw [hg]
      by_cases e : x = k
      · subst e; rw [if_pos rfl, hr]; exact ok2_none _
      · have := h x p; rw [hfull, if_neg e] at this; rwa [if_neg e]
    · intro h x p
      by_cases e : x = k
      · subst e; rw [hb]; exact none_ok2 _
      · have := h x p; rw [hg, if_neg e] at this; rwa [hfull, if_neg e]
  refine ⟨fun hc => h.1 (hC.mp hc), fun m hm => ?_⟩
  obtain ⟨h1, h2, h3⟩ := h.2 m hm
  refine ⟨hC.mpr h1, h2, ?_⟩
  intro p
  rw [h3]
  cases p with
  | nil => rfl
  | cons x p =>
    simp only [settings_cons, hg, hfull]
    by_cases e : x = k
    · subst e; simp [hb, hr]
    · simp [e]

theorem mergeTables_spec (add : Tbl) : ∀ (base : Tbl), base.Wf → add.Wf → Merges base add (mergeTables base add) := by
  induction add with
  | nil =>
    intro base hb _
    refine ⟨fun _ => ⟨base, rfl⟩, ?_⟩
    intro m hm
    simp only [mergeTables, Except.ok.injEq] at hm
    subst hm
    refine ⟨?_, hb, ?_⟩
    · rw [compatible_keys]; intro k p; exact ok2_none _
    · intro p
      cases p with
      | nil => rfl
      | cons k p => simp [settings_cons, Tbl.get]
  | leaf k a rest ih =>
    intro base hb hw
    have hself : (Tbl.leaf k a rest).get k = some (.atom a) := by simp [Tbl.get]
    unfold mergeTables
    cases hg : base.get k with
    | none =>
      exact merges_insert hg hw.1 (fun x => rfl) (ih _ (wf_insert _ _ _ hg hb trivial) hw.2)
    | some v =>
      have hno : ¬Compatible base (Tbl.leaf k a rest) := by
        intro hc
        obtain ⟨x, hx, _⟩ := within_root v
        have := (compatible_keys _ _).mp hc k [] x (.value a) (by rw [hg]; exact hx) (by rw [hself]; rfl)
        cases this.2
      cases v <;> exact ⟨fun hc => absurd hc hno, fun m hm => by cases hm⟩
  | sub k t rest iht ih =>
    intro base hb hw
    have hself : (Tbl.sub k t rest).get k = some (.table t) := by simp [Tbl.get]
    unfold mergeTables
    cases hg : base.get k with
    | none =>
      exact merges_insert hg hw.1 (fun x => rfl) (ih _ (wf_insert _ _ _ hg hb hw.2.1) hw.2.2)
    | some v =>
      cases v with
      | atom a =>
        have hno : ¬Compatible base (Tbl.sub k t rest) := by
          intro hc
          have := (compatible_keys _ _).mp hc k [] (.value a) .table (by rw [hg]; rfl) (by rw [hself]; rfl)
          cases this.1
        exact ⟨fun hc => absurd hc hno, fun m hm => by cases hm⟩
      | table b =>
        have hin := iht b (wf_get hb hg) hw.2.1
        have hCb : Compatible base (Tbl.sub k t rest) → Compatible b t := by
          intro hc p
          have := (compatible_keys _ _).mp hc k p
          rw [hg, hself] at this; exact this
        simp only
        cases hm : mergeTables b t with
        | error e =>
          refine ⟨fun hc => ?_, fun m h => by cases h⟩
          obtain ⟨m, h⟩ := hin.1 (hCb hc)
          rw [hm] at h; cases h
        | ok m1 =>
          obtain ⟨c1, w1, s1⟩ := hin.2 m1 hm
          have hgs := get_setTable base k b m1 hg
          have hrest := ih _ (wf_setTable _ _ _ _ hg hb w1) hw.2.2
          have hC : Compatible base (Tbl.sub k t rest) ↔ Compatible (base.setTable k m1) rest := by
            rw [compatible_keys, compatible_keys]
            constructor
            · intro h x p
              rw [hgs]
              by_cases e : x = k
              · subst e; rw [hw.1]; exact ok2_none _
              · have := h x p; simp only [Tbl.get, if_neg e] at this; rwa [if_neg e]
            · intro h x p
              by_cases e : x = k
              · subst e; rw [hg, hself]; exact c1 p
              · have := h x p; rw [hgs, if_neg e] at this; simp only [Tbl.get, if_neg e]; exact this
          refine ⟨fun hc => hrest.1 (hC.mp hc), fun m h => ?_⟩
          obtain ⟨h1, h2, h3⟩ := hrest.2 m h
          refine ⟨hC.mpr h1, h2, ?_⟩
          intro p
          rw [h3]
          cases p with
          | nil => rfl
          | cons x p =>
            simp only [settings_cons, hgs, Tbl.get]
            by_cases e : x = k
            · subst e
              simp only [if_true, hg, hw.1, Option.bind_some, Option.bind_none, within, Option.or_none]
              exact s1 p
            · simp [e]

/-! ## All includes -/

theorem exists_cons {α : Type} {P : α → Prop} {a : α} {l : List α} : (∃ t, t ∈ a :: l ∧ P t) ↔ P a ∨ ∃ t, t ∈ l ∧ P t := by
  constructor
  · rintro ⟨t, ht, h⟩
    rcases List.mem_cons.mp ht with rfl | ht
    · exact Or.inl h
    · exact Or.inr ⟨t, ht, h⟩
  · rintro (h | ⟨t, ht, h⟩)
    · exact ⟨a, List.mem_cons_self .., h⟩
    · exact ⟨t, List.mem_cons_of_mem _ ht, h⟩

/-- What the loop over includes must do with the documents it finds. -/
theorem compat_symm {s t : Tbl} (h : Compatible s t) : Compatible t s := fun p x y hx hy => (h p y x hy hx).symm

theorem or_some {x y : Option Setting} {k : Setting} (h : Ok2 x y) : x.or y = some k ↔ x = some k ∨ y = some k := by
  cases x with
  | none => simp
  | some a =>
    cases y with
    | none => simp
    | some b => obtain ⟨rfl, rfl⟩ := h a b rfl rfl; simp

/-- A document is compatible with a merged one iff it is with both. -/
theorem compat_union {a b m t : Tbl} (hab : Compatible a b) (hm : ∀ p, settings m p = (settings a p).or (settings b p)) :
    Compatible m t ↔ Compatible a t ∧ Compatible b t := by
  have hk : ∀ p k, settings m p = some k ↔ settings a p = some k ∨ settings b p = some k := fun p k => by
    rw [hm]; exact or_some (hab p)
  constructor
  · intro h
    exact ⟨fun p x y hx hy => h p x y ((hk p x).mpr (Or.inl hx)) hy, fun p x y hx hy => h p x y ((hk p x).mpr (Or.inr hx)) hy⟩
  · rintro ⟨h1, h2⟩ p x y hx hy
    rcases (hk p x).mp hx with hx | hx
    · exact h1 p x y hx hy
    · exact h2 p x y hx hy

/-- The file named by an entry of the include array: a trailing question mark marks it optional. -/
def entryPath (s : List Char) : List Char := if s.getLast? = some '?' then s.dropLast else s
def entryOptional (s : List Char) : Bool := s.getLast? = some '?'

/-- The documents listed, in order (missing optional files contribute nothing). -/
def listedDocs (files : List Char → FileRes) (dir : List Char) (l : List (List Char)) : List Tbl :=
  l.filterMap fun s => match files (join dir (entryPath s)) with | .ok t => some t | _ => none

/-- Entries that can be included: the file parses and has no includes of its own, or is optional and missing. -/
def Includable (files : List Char → FileRes) (dir : List Char) (s : List Char) : Prop :=
  (files (join dir (entryPath s)) = .notFound ∧ entryOptional s = true) ∨
    ∃ t, files (join dir (entryPath s)) = .ok t ∧ t.get "include" = none

/-- A valid include path: not blank, relative, no `..`. -/
def ValidPath (ws : Char → Bool) (p : List Char) : Prop :=
  (∃ c ∈ p, ws c = false) ∧ p.head? ≠ some '/' ∧ ['.', '.'] ∉ pieces p

theorem no_root (p : List Char) (h : isAbsolute p = false) : Comp.root ∉ components p := by
  unfold components
  rw [h]
  simp only [Bool.false_eq_true, if_false]
  have hp : ∀ b s, pieceComp b s ≠ some .root := by
    intro b s
    unfold pieceComp
    split
    · simp
    split
    · cases b <;> simp
    split <;> simp
  split
  · simp
  · intro hm
    rcases List.mem_append.mp hm with hm | hm
    · rw [Option.mem_toList] at hm; exact hp _ _ hm
    · obtain ⟨s, _, hs⟩ := List.mem_filterMap.mp hm; exact hp _ _ hs

theorem parent_iff (p : List Char) : Comp.parent ∈ components p ↔ ['.', '.'] ∈ pieces p := by
  have hp : ∀ b s, pieceComp b s = some .parent ↔ s = ['.', '.'] := by
    intro b s
    unfold pieceComp
    split
    · rename_i h; subst h; simp
    split
    · rename_i h; subst h; cases b <;> simp
    split
    · rename_i h; subst h; simp
    · rename_i h; simp [h]
  unfold components
  split
  · simp [List.mem_filterMap, hp]
  · split
    · rename_i h; simp [h]
    · rename_i s ss h
      rw [h, List.mem_append, Option.mem_toList, hp, List.mem_filterMap, List.mem_cons]
      simp only [hp, exists_eq_right]
      constructor <;> (rintro (h | h); exact Or.inl h.symm; exact Or.inr h)

theorem validate_ok (ws : Char → Bool) (p : List Char) : validateIncludePath ws p = .ok () ↔ ValidPath ws p := by
  unfold validateIncludePath ValidPath
  by_cases h1 : p.all ws = true
  · rw [if_pos h1]
    constructor
    · intro h; cases h
    · rintro ⟨⟨c, hc, hw⟩, _⟩
      have := List.all_eq_true.mp h1 c hc
      rw [hw] at this; cases this
  rw [if_neg h1]
  have h1' : ∃ c ∈ p, ws c = false := by
    rw [List.all_eq_true] at h1
    simpa using h1
  cases h2 : isAbsolute p with
  | true =>
    rw [if_pos rfl]
    constructor
    · intro h; cases h
    · rintro ⟨_, h, _⟩; exact absurd (of_decide_eq_true h2) h
  | false =>
    rw [if_neg (by simp)]
    have h2' : p.head? ≠ some '/' := of_decide_eq_false h2
    have h3 : ((components p).any fun c => c = .parent || c = .root) = true ↔ ['.', '.'] ∈ pieces p := by
      rw [List.any_eq_true, ← parent_iff]
      constructor
      · rintro ⟨c, hc, h⟩
        simp only [Bool.or_eq_true, decide_eq_true_eq] at h
        rcases h with rfl | rfl
        · exact hc
        · exact absurd hc (no_root p h2)
      · intro h; exact ⟨_, h, by simp⟩
    by_cases h : ['.', '.'] ∈ pieces p
    · rw [if_pos (h3.mpr h)]
      constructor
      · intro h; cases h
      · rintro ⟨_, _, h'⟩; exact absurd h h'
    · rw [if_neg (fun e => h (h3.mp e))]
      exact ⟨fun _ => ⟨h1', h2', h⟩, fun _ => rfl⟩

theorem parseEntry_eq (ws : Char → Bool) (s : List Char) :
    (ValidPath ws (entryPath s) ∧ parseEntry ws s = .ok (entryPath s, entryOptional s)) ∨
    (¬ValidPath ws (entryPath s) ∧ ∃ e, parseEntry ws s = .error e) := by
  have h : parseEntry ws s = match validateIncludePath ws (entryPath s) with
      | .error e => .error e
      | .ok () => .ok (entryPath s, entryOptional s) := by
    unfold parseEntry entryPath entryOptional
    by_cases h : s.getLast? = some '?' <;> simp only [h, if_true, if_false, decide_true, decide_false] <;>
      (cases validateIncludePath ws _ <;> rfl)
  rw [h, ← validate_ok]
  cases hv : validateIncludePath ws (entryPath s) with
  | error e => exact Or.inr ⟨fun h => (nomatch h), e, rfl⟩
  | ok u => exact Or.inl ⟨rfl, rfl⟩

theorem parseEntries_eq (ws : Char → Bool) (l : List (List Char)) :
    ((∀ s ∈ l, ValidPath ws (entryPath s)) ∧ parseEntries ws l = .ok (l.map fun s => (entryPath s, entryOptional s))) ∨
    ((¬∀ s ∈ l, ValidPath ws (entryPath s)) ∧ ∃ e, parseEntries ws l = .error e) := by
  induction l with
  | nil => exact Or.inl ⟨fun s h => (nomatch h), rfl⟩
  | cons s l ih =>
    unfold parseEntries
    rcases parseEntry_eq ws s with ⟨h1, h2⟩ | ⟨h1, e, h2⟩
    · rw [h2]
      rcases ih with ⟨i1, i2⟩ | ⟨i1, e, i2⟩
      · rw [i2]; exact Or.inl ⟨List.forall_mem_cons.mpr ⟨h1, i1⟩, rfl⟩
      · rw [i2]; exact Or.inr ⟨fun h => i1 (List.forall_mem_cons.mp h).2, e, rfl⟩
    · rw [h2]; exact Or.inr ⟨fun h => h1 (List.forall_mem_cons.mp h).1, e, rfl⟩

theorem includeAll_spec (files : List Char → FileRes) (dir : List Char) (hf : ∀ p t, files p = .ok t → t.Wf) (l : List (List Char)) :
    ∀ base : Tbl, base.Wf →
    ((∀ s ∈ l, Includable files dir s) → (base :: listedDocs files dir l).Pairwise Compatible →
      ∃ m, includeAll files dir base (l.map fun s => (entryPath s, entryOptional s)) = .ok m) ∧
    ∀ m, includeAll files dir base (l.map fun s => (entryPath s, entryOptional s)) = .ok m →
      (∀ s ∈ l, Includable files dir s) ∧ (base :: listedDocs files dir l).Pairwise Compatible ∧ m.Wf ∧
      ∀ p k, settings m p = some k ↔ ∃ t ∈ base :: listedDocs files dir l, settings t p = some k := by
  induction l with
  | nil =>
    intro base hb
    refine ⟨fun _ _ => ⟨base, rfl⟩, ?_⟩
    intro m hm
    simp only [List.map_nil, includeAll, Except.ok.injEq] at hm
    subst hm
    exact ⟨fun s h => (nomatch h), by simp [listedDocs], hb, by simp [listedDocs]⟩
  | cons s l ih =>
    intro base hb
    simp only [List.map_cons, includeAll]
    cases hfs : files (join dir (entryPath s)) with
    | notFound =>
      have hd : listedDocs files dir (s :: l) = listedDocs files dir l := by simp [listedDocs, hfs]
      simp only [hd]
      cases ho : entryOptional s with
      | true =>
        simp only [if_true]
        obtain ⟨i1, i2⟩ := ih base hb
        refine ⟨fun h => i1 (List.forall_mem_cons.mp h).2, fun m hm => ?_⟩
        obtain ⟨j1, j2⟩ := i2 m hm
        exact ⟨List.forall_mem_cons.mpr ⟨Or.inl ⟨hfs, ho⟩, j1⟩, j2⟩
      | false =>
        simp only [Bool.false_eq_true, if_false]
        refine ⟨fun h => ?_, fun m h => (nomatch h)⟩
        rcases (List.forall_mem_cons.mp h).1 with ⟨_, h⟩ | ⟨t, h, _⟩
        · rw [ho] at h; cases h
        · rw [hfs] at h; cases h
    | ioError =>
      refine ⟨fun h => ?_, fun m h => (nomatch h)⟩
      rcases (List.forall_mem_cons.mp h).1 with ⟨h, _⟩ | ⟨t, h, _⟩ <;> (rw [hfs] at h; cases h)
    | notToml =>
      refine ⟨fun h => ?_, fun m h => (nomatch h)⟩
      rcases (List.forall_mem_cons.mp h).1 with ⟨h, _⟩ | ⟨t, h, _⟩ <;> (rw [hfs] at h; cases h)
    | ok t =>
      have hd : listedDocs files dir (s :: l) = t :: listedDocs files dir l := by simp [listedDocs, hfs]
      simp only [hd]
      cases hn : t.get "include" with
      | some v =>
        simp only [Option.isSome_some, if_true]
        refine ⟨fun h => ?_, fun m h => (nomatch h)⟩
        rcases (List.forall_mem_cons.mp h).1 with ⟨h, _⟩ | ⟨t', h, h'⟩
        · rw [hfs] at h; cases h
        · rw [hfs] at h; cases h; rw [hn] at h'; cases h'
      | none =>
        simp only [Option.isSome_none, Bool.false_eq_true, if_false]
        have hinc : Includable files dir s := Or.inr ⟨t, hfs, hn⟩
        have hms := mergeTables_spec t base hb (hf _ _ hfs)
        cases hm : mergeTables base t with
        | error e =>
          refine ⟨fun _ h => ?_, fun m h => (nomatch h)⟩
          obtain ⟨m, h'⟩ := hms.1 ((List.pairwise_cons.mp h).1 t (List.mem_cons_self ..))
          rw [hm] at h'; cases h'
        | ok m1 =>
          obtain ⟨c1, w1, s1⟩ := hms.2 m1 hm
          obtain ⟨i1, i2⟩ := ih m1 w1
          have hpw : (base :: t :: listedDocs files dir l).Pairwise Compatible ↔ (m1 :: listedDocs files dir l).Pairwise Compatible := by
            simp only [List.pairwise_cons, List.forall_mem_cons, compat_union c1 s1]
            constructor
            · rintro ⟨⟨_, h1⟩, h2, h3⟩; exact ⟨fun x hx => ⟨h1 x hx, h2 x hx⟩, h3⟩
            · rintro ⟨h1, h3⟩; exact ⟨⟨c1, fun x hx => (h1 x hx).1⟩, fun x hx => (h1 x hx).2, h3⟩
          simp only
          refine ⟨fun h h' => i1 (List.forall_mem_cons.mp h).2 (hpw.mp h'), fun m h => ?_⟩
          obtain ⟨j1, j2, j3, j4⟩ := i2 m h
          refine ⟨List.forall_mem_cons.mpr ⟨hinc, j1⟩, hpw.mpr j2, j3, ?_⟩
          intro p k
          rw [j4]
          simp only [exists_cons, s1 p, or_some (c1 p), or_assoc]

/-! ## C46 -/

/-- The include array of a root document, if it has one (an array of strings). -/
def includeList (root : Tbl) : Option (List (List Char)) :=
  match root.get "include" with
  | none => some []
  | some (.atom (.strings l)) => some l
  | some _ => none

/-- The root document without its include array. -/
def withoutInclude (root : Tbl) : List String → Option Setting := fun p => if p.head? = some "include" then none else settings root p

theorem settings_remove (root : Tbl) (hr : root.Wf) (p : List String) : settings (root.remove "include") p = withoutInclude root p := by
  cases p with
  | nil => rfl
  | cons k p =>
    simp only [withoutInclude, settings_cons, get_remove _ _ hr, List.head?_cons, Option.some.injEq]
    by_cases e : k = "include" <;> simp [e]

theorem resolve_eq (ws : Char → Bool) (files : List Char → FileRes) (dir : List Char) (root : Tbl) (m : Tbl) :
    resolveIncludes ws files dir root = .ok m ↔ ∃ l, includeList root = some l ∧ (∀ s ∈ l, ValidPath ws (entryPath s)) ∧
      includeAll files dir (root.remove "include") (l.map fun s => (entryPath s, entryOptional s)) = .ok m := by
  have key : ∀ l, (match parseEntries ws l with | .error e => (.error e : Except IErr Tbl) | .ok es => includeAll files dir (root.remove "include") es)
      = .ok m ↔ (∀ s ∈ l, ValidPath ws (entryPath s)) ∧
        includeAll files dir (root.remove "include") (l.map fun s => (entryPath s, entryOptional s)) = .ok m := by
    intro l
    rcases parseEntries_eq ws l with ⟨h1, h2⟩ | ⟨h1, e, h2⟩
    · rw [h2]; simp only [h1, true_and]; exact ⟨fun h => ⟨h1, h⟩, fun h => h.2⟩
    · rw [h2]; exact ⟨fun h => (nomatch h), fun h => absurd h.1 h1⟩
  unfold resolveIncludes parseIncludeArray includeList
  cases hg : root.get "include" with
  | none =>
    simp only [Option.some.injEq, exists_eq_left']
    constructor
    · intro h; exact ⟨fun s h => (nomatch h), h⟩
    · rintro ⟨_, h⟩; exact h
  | some v =>
    cases v with
    | table t =>
      constructor
      · intro h; cases h
      · rintro ⟨l, h, _⟩; cases h
    | atom a =>
      cases a with
      | strings l =>
        simp only [Option.some.injEq, exists_eq_left']
        exact key l
      | str x | bool x | int x | ints x | other x =>
        constructor
        · intro h; cases h
        · rintro ⟨l, h, _⟩; cases h

variable {ws : Char → Bool} {files : List Char → FileRes} {dir : List Char} {root : Tbl}

/-- C46, when a configuration with includes is accepted: exactly if its include array is an array of valid paths, every file
listed can be included, and no two of the documents give the same key (other than tables given by both). -/
theorem C46_accepted_iff (hr : root.Wf) (hf : ∀ p t, files p = .ok t → t.Wf) :
    (∃ m, resolveIncludes ws files dir root = .ok m) ↔
      ∃ l, includeList root = some l ∧ (∀ s ∈ l, ValidPath ws (entryPath s) ∧ Includable files dir s) ∧
        (root.remove "include" :: listedDocs files dir l).Pairwise Compatible := by
  constructor
  · rintro ⟨m, h⟩
    obtain ⟨l, h1, h2, h3⟩ := (resolve_eq ws files dir root m).mp h
    obtain ⟨i1, i2, _⟩ := (includeAll_spec files dir hf l _ (wf_remove _ _ hr)).2 m h3
    exact ⟨l, h1, fun s hs => ⟨h2 s hs, i1 s hs⟩, i2⟩
  · rintro ⟨l, h1, h2, h3⟩
    obtain ⟨m, hm⟩ := (includeAll_spec files dir hf l _ (wf_remove _ _ hr)).1 (fun s hs => (h2 s hs).2) h3
    exact ⟨m, (resolve_eq ws files dir root m).mpr ⟨l, h1, fun s hs => (h2 s hs).1, hm⟩⟩

/-- C46, contents: the merged configuration has exactly the settings of the root document (without its include array) and of
the documents listed, each with the value given there. -/
theorem C46_settings (hr : root.Wf) (hf : ∀ p t, files p = .ok t → t.Wf) {m : Tbl} (h : resolveIncludes ws files dir root = .ok m)
    {l : List (List Char)} (hl : includeList root = some l) (p : List String) (x : Setting) :
    settings m p = some x ↔ withoutInclude root p = some x ∨ ∃ t ∈ listedDocs files dir l, settings t p = some x := by
  obtain ⟨l', h1, h2, h3⟩ := (resolve_eq ws files dir root m).mp h
  rw [hl] at h1; obtain rfl := Option.some.inj h1
  obtain ⟨_, _, _, i4⟩ := (includeAll_spec files dir hf l _ (wf_remove _ _ hr)).2 m h3
  rw [i4, exists_cons, settings_remove _ hr]

/-- C46, nothing is overridden: a key with a value is given by one of the documents only; the others have nothing there. -/
theorem C46_no_override (hr : root.Wf) (hf : ∀ p t, files p = .ok t → t.Wf) {m : Tbl} (h : resolveIncludes ws files dir root = .ok m)
    {l : List (List Char)} (hl : includeList root = some l) (pre post : List Tbl) (s : Tbl)
    (hs : root.remove "include" :: listedDocs files dir l = pre ++ s :: post) (p : List String) (a : Atom)
    (hp : settings s p = some (.value a)) : (∀ t ∈ pre ++ post, settings t p = none) ∧ settings m p = some (.value a) := by
  obtain ⟨l', h1, h2, h3⟩ := (resolve_eq ws files dir root m).mp h
  rw [hl] at h1; obtain rfl := Option.some.inj h1
  obtain ⟨_, i2, _, i4⟩ := (includeAll_spec files dir hf l _ (wf_remove _ _ hr)).2 m h3
  rw [hs] at i2
  refine ⟨?_, (i4 p _).mpr ⟨s, by rw [hs]; simp, hp⟩⟩
  intro t ht
  cases ho : settings t p with
  | none => rfl
  | some y =>
    have hc : Compatible s t := by
      obtain ⟨_, h2, h3⟩ := List.pairwise_append.mp i2
      rcases List.mem_append.mp ht with ht | ht
      · exact compat_symm (h3 t ht s (List.mem_cons_self ..))
      · exact (List.pairwise_cons.mp h2).1 t ht
    have := (hc p _ _ hp ho).1
    cases this

/-- C46, order: listing the same files in another order is accepted as well, with the same settings. -/
theorem C46_order (hr : root.Wf) (hf : ∀ p t, files p = .ok t → t.Wf) {root' : Tbl} (hr' : root'.Wf)
    {l l' : List (List Char)} (hl : includeList root = some l) (hl' : includeList root' = some l') (hperm : l.Perm l')
    (hsame : root'.remove "include" = root.remove "include") {m : Tbl} (h : resolveIncludes ws files dir root = .ok m) :
    ∃ m', resolveIncludes ws files dir root' = .ok m' ∧ ∀ p, settings m' p = settings m p := by
  obtain ⟨l0, h1, h2, h3⟩ := (C46_accepted_iff hr hf).mp ⟨m, h⟩
  rw [hl] at h1; obtain rfl := Option.some.inj h1
  have hdocs : (listedDocs files dir l).Perm (listedDocs files dir l') := hperm.filterMap _
  obtain ⟨m', hm'⟩ := (C46_accepted_iff (ws := ws) (dir := dir) hr' hf).mpr ⟨l', hl', fun s hs => h2 s (hperm.mem_iff.mpr hs), by
    rw [hsame]; exact ((hdocs.cons _).pairwise_iff compat_symm).mp h3⟩
  refine ⟨m', hm', ?_⟩
  intro p
  apply Option.ext
  intro x
  have hwi : withoutInclude root' p = withoutInclude root p := by
    rw [← settings_remove _ hr', ← settings_remove _ hr, hsame]
  rw [C46_settings hr' hf hm' hl' p x, C46_settings hr hf h hl p x, hwi]
  constructor <;> rintro (h | ⟨t, ht, h⟩)
  · exact Or.inl h
  · exact Or.inr ⟨t, hdocs.mem_iff.mpr ht, h⟩
  · exact Or.inl h
  · exact Or.inr ⟨t, hdocs.mem_iff.mp ht, h⟩

/-! ### Paths -/

theorem pieces_ne (p : List Char) : pieces p ≠ [] := by
  cases p with
  | nil => simp [pieces]
  | cons c p =>
    unfold pieces
    split
    · simp
    · split <;> simp

theorem pieces_append (a b : List Char) : pieces (a ++ '/' :: b) = pieces a ++ pieces b := by
  induction a with
  | nil => simp [pieces]
  | cons c a ih =>
    have hu : ∀ cs, pieces (c :: cs) = if c = '/' then [] :: pieces cs else
        match pieces cs with | [] => [[c]] | p :: ps => (c :: p) :: ps := fun cs => rfl
    rw [List.cons_append, hu, hu]
    by_cases hc : c = '/'
    · rw [if_pos hc, if_pos hc, ih]; rfl
    · rw [if_neg hc, if_neg hc, ih]
      cases hp : pieces a with
      | nil => exact absurd hp (pieces_ne a)
      | cons x xs => rfl

theorem walk_append (d : List (List Char)) (a b : List (List Char)) : walk d (a ++ b) = walk (walk d a) b := by
  induction a generalizing d with
  | nil => rfl
  | cons s a ih =>
    simp only [List.cons_append, walk]
    split
    · exact ih d
    split
    · exact ih _
    · exact ih _

theorem walk_prefix (d : List (List Char)) (ps : List (List Char)) (h : ['.', '.'] ∉ ps) : d <+: walk d ps := by
  induction ps generalizing d with
  | nil => exact List.prefix_refl d
  | cons s ps ih =>
    rw [List.mem_cons, not_or] at h
    simp only [walk]
    split
    · exact ih d h.2
    · rw [if_neg (Ne.symm h.1)]
      exact (List.prefix_append d [s]).trans (ih _ h.2)

/-- C46, paths: the file read for an accepted entry is the configuration directory's path followed by the entry's; wherever
the directory is (relative to any working directory `cwd`), it leads to a place below it. -/
theorem C46_path_inside (cwd : List (List Char)) (s : List Char) (hs : ValidPath ws (entryPath s)) :
    walk cwd (pieces dir) <+: walk cwd (pieces (join dir (entryPath s))) := by
  obtain ⟨_, h2, h3⟩ := hs
  generalize entryPath s = p at h2 h3
  have habs : isAbsolute p = false := decide_eq_false h2
  unfold join
  rw [habs]
  simp only [Bool.false_eq_true, if_false]
  split
  · rename_i hd; subst hd
    exact walk_prefix cwd _ h3
  split
  · rename_i _ hl
    obtain ⟨d, rfl⟩ := List.getLast?_eq_some_iff.mp hl
    rw [List.append_assoc, show ['/'] ++ p = '/' :: p from rfl, pieces_append, pieces_append, walk_append, walk_append]
    exact walk_prefix _ _ h3
  · rw [pieces_append, walk_append]
    exact walk_prefix _ _ h3

/-- C46: with a path that leads out of the directory nothing is read, the configuration is refused. -/
theorem C46_bad_path_refused {l : List (List Char)} (hl : includeList root = some l) {s : List Char} (hs : s ∈ l)
    (hbad : ¬ValidPath ws (entryPath s)) : ∃ e, resolveIncludes ws files dir root = .error e := by
  cases h : resolveIncludes ws files dir root with
  | error e => exact ⟨e, rfl⟩
  | ok m =>
    obtain ⟨l', h1, h2, _⟩ := (resolve_eq ws files dir root m).mp h
    rw [hl] at h1; obtain rfl := Option.some.inj h1
    exact absurd (h2 s hs) hbad

/-! ### Example -/

/-- A root with two includes, one of them optional and missing; both files and root have a `[secrets]` table. -/
def demoRoot : Tbl := .leaf "include" (.strings ["s.toml".toList, "x.toml?".toList]) (.sub "device" (.leaf "data_path" (.str "/d") .nil)
  (.sub "secrets" (.sub "a" .nil .nil) .nil))
def demoInc : Tbl := .sub "secrets" (.sub "b" (.leaf "encoding" (.str "base64") .nil) .nil) .nil
def demoFiles (p : List Char) : FileRes := if p = "/etc/u/s.toml".toList then .ok demoInc else .notFound

example : demoRoot.Wf ∧ (∀ p t, demoFiles p = .ok t → t.Wf) ∧
    resolveIncludes (· = ' ') demoFiles "/etc/u".toList demoRoot =
      .ok (.sub "device" (.leaf "data_path" (.str "/d") .nil)
        (.sub "secrets" (.sub "a" .nil (.sub "b" (.leaf "encoding" (.str "base64") .nil) .nil)) .nil)) ∧
    includeList demoRoot = some ["s.toml".toList, "x.toml?".toList] := by
  refine ⟨by simp [demoRoot, Tbl.Wf, Tbl.get], ?_, by rfl, by rfl⟩
  intro p t h
  unfold demoFiles at h
  split at h
  · cases h; simp [demoInc, Tbl.Wf, Tbl.get]
  · cases h

/-- A clash is refused. -/
example : ∃ e, resolveIncludes (· = ' ') (fun _ => .ok (.sub "device" (.leaf "data_path" (.str "/e") .nil) .nil)) "/etc/u".toList demoRoot
    = .error e := ⟨_, rfl⟩

end Verif.Config
