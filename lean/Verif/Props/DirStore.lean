import Verif.Proof.DirStore
import Verif.Props.Rearchive

/-! # C73: archives in a directory -/

set_option maxRecDepth 8000

namespace Verif.Dir
open Verif Verif.Disk Verif.Archive

variable {base : Path} {fs fs' : FS} {n n' : Name} {d : Bytes} {f : Fault} {s : Store}

/-! ## A directory is an object store -/

open Classical in
/-- The objects in a directory, by their plain names. -/
noncomputable def objects (base : Path) (fs : FS) : Name → Option Bytes := fun n => if Plain n then tryGet base fs n false else none

theorem objects_plain (h : Tree fs) (hn : Plain n) : objects base fs n = fileAt fs (base ++ parts n) := by
  unfold objects; rw [if_pos hn]; exact tryGet_plain h hn

/-- The calls are for plain names; other programs leave the directory alone. -/
def Fair (base : Path) : Store → List Op → Prop
  | _, [] => True
  | s, o :: os => (match o with
      | .put n _ _ => Plain n
      | .get n _ => Plain n
      | .other fs => Tree fs ∧ ∀ p, base <+: p → fs p = s.fs p) ∧ Fair base (s.act base o).1 os

/-- The calls and their answers, as requests to an object store. -/
def history : List Op → List (Option Ans) → List (Req × Reply)
  | .put n d _ :: os, some (.put ok) :: as => (.put n d, .stored ok) :: history os as
  | .get n _ :: os, some (.got x) :: as => (.get n, .found x) :: history os as
  | .other _ :: os, _ :: as => history os as
  | _, _ => []

/-- How many calls there are. -/
def calls (os : List Op) : Nat := (os.filter fun o => match o with | .other _ => false | _ => true).length

/-- A directory in which an archive store can work. -/
structure Ready (base : Path) (s : Store) : Prop where
  tree : Tree s.fs
  base : s.fs base = some .dir
  puts : s.puts = []
  gets : s.gets = []

theorem act_put (h : Ready base s) : s.act base (.put n d f) = ({ s with fs := (tryPut base s.fs n d f).1 }, some (.put (tryPut base s.fs n d f).2)) := by
  obtain ⟨fs, ps, gs⟩ := s
  have := h.puts; have := h.gets
  simp only at *
  subst_vars
  simp [Store.act, Store.putObject, Store.startPut]

theorem act_get {fail : Bool} (h : Ready base s) : s.act base (.get n fail) = (s, some (.got (tryGet base s.fs n fail))) := by
  obtain ⟨fs, ps, gs⟩ := s
  have := h.puts; have := h.gets
  simp only at *
  subst_vars
  simp [Store.act, Store.getObject, Store.startGet]

theorem Ready.put (h : Ready base s) (hn : Plain n) : Ready base { s with fs := (tryPut base s.fs n d f).1 } := by
  obtain ⟨p1, p2, -⟩ := tryPut_plain (d := d) (f := f) h.tree h.base hn
  exact ⟨p1, p2, h.puts, h.gets⟩

theorem objects_put (h : Tree fs) (hb : fs base = some .dir) (hn : Plain n) :
    ((tryPut base fs n d f).2 = true → objects base (tryPut base fs n d f).1 = upd (objects base fs) n (some d)) ∧
    ((tryPut base fs n d f).2 = false → objects base (tryPut base fs n d f).1 = objects base fs ∨
      ∃ k, objects base (tryPut base fs n d f).1 = upd (objects base fs) n (some (d.take k))) := by
  obtain ⟨p1, -, -, p4, p5, p6⟩ := tryPut_plain (d := d) (f := f) h hb hn
  have other : ∀ m, m ≠ n → objects base (tryPut base fs n d f).1 m = objects base fs m := by
    intro m hm
    by_cases hp : Plain m
    · rw [objects_plain p1 hp, objects_plain h hp]
      exact p4 _ fun e => hm (hp.parts_inj hn (List.append_cancel_left e))
    · unfold objects; rw [if_neg hp, if_neg hp]
  have all : ∀ v, fileAt (tryPut base fs n d f).1 (base ++ parts n) = v → objects base (tryPut base fs n d f).1 = upd (objects base fs) n v := by
    intro v hv
    funext m
    by_cases hm : m = n
    · subst hm; rw [upd_same, objects_plain p1 hn, hv]
    · rw [upd_ne _ _ hm, other m hm]
  refine ⟨fun h1 => all _ (p5 h1), fun h1 => ?_⟩
  rcases p6 h1 with e | ⟨k, e⟩
  · left
    rw [all _ e, ← objects_plain h hn]
    funext m
    by_cases hm : m = n
    · subst hm; simp
    · rw [upd_ne _ _ hm]
  · exact .inr ⟨k, all _ e⟩

/-- **C73** A directory is an object store: for every sequence of calls with plain names, whatever fails in them, each is
answered, and the answers are those of a store of named objects. -/
theorem C73_refines (h : Ready base s) {os : List Op} (hf : Fair base s os) :
    Serves (objects base s.fs) (history os (s.acts base os).2) (objects base (s.acts base os).1.fs) ∧
      (history os (s.acts base os).2).length = calls os := by
  induction os generalizing s with
  | nil => exact ⟨.nil _, rfl⟩
  | cons o os ih =>
    obtain ⟨h1, h2⟩ := hf
    cases o with
    | put n d f =>
      simp only at h1
      rw [act_put h] at h2
      obtain ⟨i1, i2⟩ := ih (h.put h1) h2
      simp only [Store.acts, act_put h, history]
      refine ⟨.cons ?_ i1, by simp only [List.length_cons, i2]; simp [calls]⟩
      obtain ⟨o1, o2⟩ := objects_put (d := d) (f := f) h.tree h.base h1
      cases hok : (tryPut base s.fs n d f).2 with
      | true => rw [o1 hok]; exact .stored _ _
      | false =>
        rcases o2 hok with e | ⟨k, e⟩
        · rw [e]; exact .refused _ _
        · rw [e]; exact .torn _ _ k
    | get n fail =>
      simp only at h1
      rw [act_get h] at h2
      obtain ⟨i1, i2⟩ := ih h h2
      simp only [Store.acts, act_get h, history]
      refine ⟨.cons ?_ i1, by simp only [List.length_cons, i2]; simp [calls]⟩
      cases hg : tryGet base s.fs n fail with
      | none => exact .missing _
      | some x =>
        refine .found _ _ ?_
        cases fail with
        | true => simp [tryGet] at hg
        | false => unfold objects; rw [if_pos h1, hg]
    | other fs' =>
      simp only at h1
      have hr : Ready base { s with fs := fs' } := ⟨h1.1, by show fs' base = _; rw [h1.2 base (List.prefix_refl _)]; exact h.base, h.puts, h.gets⟩
      obtain ⟨i1, i2⟩ := ih (s := { s with fs := fs' }) hr h2
      simp only [Store.acts, Store.act, history]
      refine ⟨?_, by rw [i2]; simp [calls]⟩
      have : objects base s.fs = objects base fs' := by
        funext m
        by_cases hp : Plain m
        · rw [objects_plain h.tree hp, objects_plain h1.1 hp]; unfold fileAt; rw [h1.2 _ (List.prefix_append _ _)]
        · unfold objects; rw [if_neg hp, if_neg hp]
      rw [this]; exact i1

/-- **C73** Calls with plain names change nothing outside the directory. -/
theorem C73_inside (h : Ready base s) (hn : Plain n) {p : Path} (hp : ¬ base <+: p) :
    (s.act base (.put n d f)).1.fs p = s.fs p ∧ ∀ fail, (s.act base (.get n fail)).1.fs p = s.fs p := by
  refine ⟨?_, fun fail => by rw [act_get h]⟩
  rw [act_put h]
  exact (tryPut_plain (d := d) (f := f) h.tree h.base hn).2.2.1 p fun e => hp e.1

/-! ## The names of an archive -/

/-- The names of the objects of an archive. -/
inductive ArchiveName : Name → Prop where
  | desc : ArchiveName metadataName
  | index : ArchiveName mappingName
  | object (h : Bytes) : h.length = 32 → ArchiveName (objectKey h)

theorem split_plain {l : List Char} (h : '/' ∉ l) : split l = [l] := by
  induction l with
  | nil => rfl
  | cons c l ih =>
    have hc : c ≠ '/' := fun e => h (e ▸ List.mem_cons_self)
    simp only [split, if_neg hc, ih fun hm => h (List.mem_cons_of_mem _ hm)]

theorem hex_chars (h : Bytes) : ∀ c ∈ hex h, c ≠ '/' ∧ c ≠ '.' := by
  have key : ∀ i : Fin 16, hexDigit i.val ≠ '/' ∧ hexDigit i.val ≠ '.' := by decide
  intro c hc
  simp only [hex, List.mem_flatMap, List.mem_cons, List.not_mem_nil, or_false] at hc
  obtain ⟨x, -, hc⟩ := hc
  have := x.toNat_lt
  rcases hc with rfl | rfl
  · exact key ⟨x.toNat / 16, by omega⟩
  · exact key ⟨x.toNat % 16, by omega⟩

/-- **C73** An object lies in the file `data/` and, for each byte of its hash, two hexadecimal digits in lower case, the high one first. -/
theorem C73_object_file (h : Bytes) : objectKey h = "data/".toList ++
    h.flatMap fun x => ["0123456789abcdef".toList.getD (x.toNat / 16) 'x', "0123456789abcdef".toList.getD (x.toNat % 16) 'x'] := by
  have key : ∀ i : Fin 16, hexDigit i.val = "0123456789abcdef".toList.getD i.val 'x' := by decide
  unfold objectKey hex
  congr 1
  congr 1
  funext x
  have := x.toNat_lt
  rw [key ⟨x.toNat / 16, by omega⟩, key ⟨x.toNat % 16, by omega⟩]

theorem split_object (h : Bytes) : split (objectKey h) = [['d', 'a', 't', 'a'], hex h] := by
  have : split (hex h) = [hex h] := split_plain fun hm => (hex_chars h _ hm).1 rfl
  simp [objectKey, split, this]

theorem hex_ne_nil {h : Bytes} (hl : h.length = 32) : hex h ≠ [] := by
  cases h with
  | nil => simp at hl
  | cons a t => simp [hex]

theorem split_desc : split metadataName = [metadataName] := split_plain (by decide)
theorem split_index : split mappingName = [mappingName] := split_plain (by decide)

/-- **C73** The names of an archive are plain. -/
theorem ArchiveName.plain (h : ArchiveName n) : Plain n := by
  cases h with
  | desc => intro p hp; rw [split_desc, List.mem_singleton] at hp; subst hp; decide
  | index => intro p hp; rw [split_index, List.mem_singleton] at hp; subst hp; decide
  | object h hl =>
    intro p hp
    rw [split_object] at hp
    simp only [List.mem_cons, List.not_mem_nil, or_false] at hp
    rcases hp with rfl | rfl
    · decide
    · have dot : ∀ l, hex h = '.' :: l → False := fun l e => (hex_chars h '.' (by rw [e]; simp)).2 rfl
      exact ⟨hex_ne_nil hl, fun e => dot _ e, fun e => dot _ e⟩

/-- **C73** No object of an archive stands in the way of another. -/
theorem ArchiveName.apart (h : ArchiveName n) (h' : ArchiveName n') (hne : n ≠ n') : ¬ parts n <+: parts n' := by
  rw [h.plain.parts, h'.plain.parts]
  cases h with
  | desc =>
    rw [split_desc]
    cases h' with
    | desc => exact absurd rfl hne
    | index => rw [split_index]; decide
    | object h hl => rw [split_object]; rintro ⟨t, ht⟩; simp [metadataName] at ht
  | index =>
    rw [split_index]
    cases h' with
    | desc => rw [split_desc]; decide
    | index => exact absurd rfl hne
    | object h hl => rw [split_object]; rintro ⟨t, ht⟩; simp [mappingName] at ht
  | object h hl =>
    rw [split_object]
    cases h' with
    | desc => rw [split_desc]; rintro ⟨t, ht⟩; simp at ht
    | index => rw [split_index]; rintro ⟨t, ht⟩; simp at ht
    | object h' hl' =>
      rw [split_object]
      rintro ⟨t, ht⟩
      simp only [List.cons_append, List.nil_append, List.cons.injEq, true_and] at ht
      exact hne (by simp only [objectKey, ht.1])

/-- All operations are on an archive's objects. -/
def OfArchive (os : List Op) : Prop := ∀ o ∈ os, match o with
  | .put n _ _ => ArchiveName n
  | .get n _ => ArchiveName n
  | .other _ => True

/-- **C73** In a directory with room for an archive (a new one, or one that holds an archive) there is room after any calls for
objects of archives, and a put that meets no fault succeeds. -/
theorem C73_put_succeeds (h : Ready base s) (hr : ∀ n, ArchiveName n → Room base s.fs n) {os : List Op} (hf : Fair base s os) (ho : OfArchive os)
    (hn : ArchiveName n) : ((s.acts base os).1.act base (.put n d .none)).2 = some (.put true) := by
  have inv : Ready base (s.acts base os).1 ∧ ∀ n, ArchiveName n → Room base (s.acts base os).1.fs n := by
    induction os generalizing s with
    | nil => exact ⟨h, hr⟩
    | cons o os ih =>
      obtain ⟨h1, h2⟩ := hf
      have ho' : OfArchive os := fun o hm => ho o (List.mem_cons_of_mem _ hm)
      have hoo := ho o List.mem_cons_self
      cases o with
      | put n d f =>
        simp only at h1 hoo
        simp only [Store.acts]
        rw [act_put h] at h2 ⊢
        refine ih (h.put h1) (fun n' hn' => tryPut_keeps_room h.tree h.base h1 (hr n' hn') ?_) h2 ho'
        by_cases e : n = n'
        · exact .inl e
        · exact .inr ⟨hoo.apart hn' e, hn'.apart hoo (Ne.symm e)⟩
      | get n fail =>
        simp only [Store.acts]
        rw [act_get h] at h2 ⊢
        exact ih h hr h2 ho'
      | other fs' =>
        simp only at h1
        have hr' : Ready base { s with fs := fs' } := ⟨h1.1, by show fs' base = _; rw [h1.2 base (List.prefix_refl _)]; exact h.base, h.puts, h.gets⟩
        refine ih (s := { s with fs := fs' }) hr' (fun n hn => ⟨fun k b hk e => (hr n hn).way k b hk ?_, fun e => (hr n hn).place ?_⟩) h2 ho'
        · rw [← h1.2 _ (List.prefix_append _ _)]; exact e
        · rw [← h1.2 _ (List.prefix_append _ _)]; exact e
  rw [act_put inv.1]
  simp only
  rw [tryPut_room inv.1.tree inv.1.base hn.plain (inv.2 n hn)]

/-- An empty directory has room for an archive. -/
theorem room_empty (hb : fs base = some .dir) (he : ∀ p, p ≠ [] → fs (base ++ p) = none) (hn : Plain n) : Room base fs n := by
  refine ⟨fun k b _ e => ?_, by rw [he _ hn.ne_nil]; simp⟩
  by_cases hk : (parts n).take k = []
  · rw [hk, List.append_nil, hb] at e; cases e
  · rw [he _ hk] at e; cases e

/-! ## Archives -/

variable {c : Cfg} {st st' : St} {ls : List Lab}

/-- The puts an archiver starts are objects of an archive. -/
theorem step_archiveName (hP : c.P.Lawful) {l : Lab} (h : Step c st l st') (hl : st'.log = st.log ++ [n]) : ArchiveName n := by
  have no : st.log = st.log ++ [n] → False := fun e => by have := congrArg List.length e; simp at this
  have no' : ∀ {α : Prop}, st.log = st.log ++ [n] → α := fun e => (no e).elim
  cases h with
  | skip => exact no' hl
  | panic => exact no' hl
  | start _ _ _ _ ok => cases ok <;> exact no' hl
  | fetchDone _ id hid ok buf hb =>
    cases ok with
    | false => exact no' hl
    | true =>
      simp only [if_true, upload] at hl
      split at hl
      · exact no' hl
      · split at hl
        · exact no' hl
        · exact no' hl
        · rename_i o ho
          split at hl
          · exact no' hl
          · simp only [St.startPut] at hl
            have := List.append_cancel_left hl
            simp only [List.cons.injEq, and_true] at this
            rw [← this]
            exact .object _ (hP.sha_len _)
  | exec => exact no' hl
  | putDone hr a b n d x ok hp hx => split at hl <;> exact no' hl
  | finish =>
    simp only [finish] at hl
    split at hl
    · exact no' hl
    · split at hl
      · exact no' hl
      · simp only [St.startPut] at hl
        have := List.append_cancel_left hl
        simp only [List.cons.injEq, and_true] at this
        rw [← this]; exact .desc
  | metaDone hr a b d x ok hp hx =>
    cases ok with
    | false => exact no' hl
    | true =>
      simp only [if_true, publish] at hl
      split at hl
      · exact no' hl
      · simp only [St.startPut] at hl
        have := List.append_cancel_left hl
        simp only [List.cons.injEq, and_true] at this
        rw [← this]; exact .index
  | mapDone hr a b d x ok hp hx => split at hl <;> exact no' hl
  | timeout => exact no' hl

/-- A put that has not succeeded stays until the archiver fails. -/
theorem step_unfinished {l : Lab} (h : Step c st l st') (hm : (n, d, false) ∈ st.puts) :
    (n, d, false) ∈ st'.puts ∨ st'.phase = .failed ∨ (st'.log = st.log ∧ (n, d, true) ∈ st'.puts) := by
  have drop : ∀ {a b : List (Name × Bytes × Bool)} {n' d' x} , st.puts = a ++ (n', d', x) :: b → x = true → (n, d, false) ∈ a ++ b := by
    intro a b n' d' x e hx
    rw [e] at hm
    rcases mem_mid.1 hm with h | h
    · cases h; cases hx
    · exact h
  cases h with
  | skip => exact .inl hm
  | panic => exact .inl hm
  | start _ _ _ _ ok => cases ok <;> exact .inl hm
  | fetchDone _ id hid ok buf hb =>
    cases ok with
    | false => exact .inl hm
    | true =>
      left
      simp only [if_true, upload]
      split
      · exact hm
      · split
        · exact hm
        · exact hm
        · split
          · exact hm
          · exact List.mem_append_left _ hm
  | exec a b n' d' x e =>
    rw [e] at hm
    rcases mem_mid.1 hm with h | h
    · cases h; exact .inr (.inr ⟨rfl, by simp⟩)
    · exact .inl (mem_mid.2 (.inr h))
  | putDone hr a b n d x ok hp hx =>
    split
    · rename_i hc
      simp only [Bool.and_eq_true] at hc
      exact .inl (drop hp (hx hc.1))
    · exact .inr (.inl rfl)
  | finish =>
    left
    simp only [finish]
    split
    · exact hm
    · split
      · exact hm
      · exact List.mem_append_left _ hm
  | metaDone hr a b d x ok hp hx =>
    cases ok with
    | false => exact .inr (.inl rfl)
    | true =>
      left
      have := drop hp (hx rfl)
      simp only [if_true, publish]
      split
      · exact this
      · exact List.mem_append_left _ this
  | mapDone hr a b d x ok hp hx =>
    cases ok with
    | false => exact .inr (.inl rfl)
    | true => exact .inl (drop hp (hx rfl))
  | timeout => exact .inr (.inl rfl)

theorem step_failed {l : Lab} (h : Step c st l st') (hf : st.phase = .failed) : st'.phase = .failed := by
  cases h with
  | exec => exact hf
  | timeout hr => rfl
  | skip hr | panic hr | start hr | fetchDone hr | putDone hr | finish hr | metaDone hr | mapDone hr => rw [hf] at hr; cases hr

/-- What a directory holds while an archive is written to it. -/
structure Mirror (c : Cfg) (base : Path) (st : St) (fs : FS) : Prop where
  tree : Tree fs
  isDir : fs base = some .dir
  same : ∀ n, ArchiveName n → objects base fs n = st.store n ∨ (∃ d, (n, d, false) ∈ st.puts) ∨ st.phase = .failed

/-- An archive run on a directory is an archive run. -/
theorem ArchRun.mirror {fs0 : FS} (hc : c.Ok) (ht : Tree fs0) (hb : fs0 base = some .dir)
    (h : ArchRun c base (St.init c (objects base fs0)) fs0 ls st fs) :
    Mirror c base st fs ∧ ∃ ls', Run c (St.init c (objects base fs0)) ls' st ∧ ∀ l, l ≠ .tau → (l ∈ ls' ↔ l ∈ ls) := by
  generalize hs0 : St.init c (objects base fs0) = s0 at h
  induction h with
  | nil => subst hs0; exact ⟨⟨ht, hb, fun _ _ => .inl rfl⟩, [], .nil _, by simp⟩
  | @snoc s1 s2 _ fs1 fs2 ls l h1 h2 ih =>
    obtain ⟨i1, ls', i2, i3⟩ := ih ht hb hs0
    subst hs0
    cases h2 with
    | act g1 g2 g3 g4 =>
      refine ⟨⟨i1.tree, i1.isDir, fun n hn => ?_⟩, _, i2.snoc g1, ?_⟩
      · rw [g3]
        rcases i1.same n hn with e | ⟨d, e⟩ | e
        · exact .inl e
        · rcases step_unfinished g1 e with e' | e' | ⟨-, e'⟩
          · exact .inr (.inl ⟨d, e'⟩)
          · exact .inr (.inr e')
          · have := g4 _ e'
            have nd := (run_inv i2).base.putsNodup
            rw [List.nodup_iff_pairwise_ne, List.pairwise_map] at nd
            exfalso
            have key : ∀ (l : List (Name × Bytes × Bool)), l.Pairwise (fun a b => a.1 ≠ b.1) → (n, d, false) ∈ l → (n, d, true) ∈ l → False := by
              intro l
              induction l with
              | nil => simp
              | cons a t ih =>
                intro hp ha hb
                rw [List.pairwise_cons] at hp
                rcases List.mem_cons.1 ha with rfl | ha'
                · rcases List.mem_cons.1 hb with hb' | hb'
                  · cases hb'
                  · exact hp.1 _ hb' rfl
                · rcases List.mem_cons.1 hb with rfl | hb'
                  · exact hp.1 _ ha' rfl
                  · exact ih hp.2 ha' hb'
            exact key _ nd e this
        · exact .inr (.inr (step_failed g1 e))
      · intro l' hl'; simp [i3 l' hl']
    | put ps n d f g1 g2 g3 =>
      rename_i s'
      have hn := step_archiveName hc.lawful g1 g2
      obtain ⟨p1, p2, -⟩ := tryPut_plain (d := d) (f := f) i1.tree i1.isDir hn.plain
      obtain ⟨o1, o2⟩ := objects_put (d := d) (f := f) i1.tree i1.isDir hn.plain
      have hst : s'.store = s1.store := by
        have no : s1.log = s1.log ++ [n] → False := fun e => by have := congrArg List.length e; simp at this
        cases g1 with
        | exec => exact (no g2).elim
        | skip => rfl
        | panic => rfl
        | start _ _ _ _ ok => cases ok <;> rfl
        | fetchDone _ id hid ok buf hb =>
          cases ok with
          | false => rfl
          | true =>
            simp only [if_true, upload]
            split
            · rfl
            · split
              · rfl
              · rfl
              · split <;> rfl
        | putDone hr a b n d x ok hp hx => split <;> rfl
        | finish =>
          simp only [finish]
          split
          · rfl
          · split <;> rfl
        | metaDone hr a b d x ok hp hx =>
          cases ok with
          | false => rfl
          | true => simp only [if_true, publish]; split <;> rfl
        | mapDone hr a b d x ok hp hx => split <;> rfl
        | timeout => rfl
      have old : ∀ m, ArchiveName m → m ≠ n → objects base fs1 m = s'.store m ∨ (∃ d', (m, d', false) ∈ ps) ∨ s'.phase = .failed := by
        intro m hm hne
        rw [hst]
        rcases i1.same m hm with e | ⟨d', e⟩ | e
        · exact .inl e
        · rcases step_unfinished g1 e with e' | e' | ⟨e', -⟩
          · rw [g3] at e'
            rcases List.mem_append.1 e' with e' | e'
            · exact .inr (.inl ⟨d', e'⟩)
            · rw [List.mem_singleton] at e'; cases e'; exact absurd rfl hne
          · exact .inr (.inr e')
          · rw [g2] at e'; have := congrArg List.length e'; simp at this
        · exact .inr (.inr (step_failed g1 e))
      cases hok : (tryPut base fs1 n d f).2 with
      | true =>
        refine ⟨⟨p1, p2, fun m hm => ?_⟩, _, (i2.snoc g1).snoc (.exec _ ps [] n d false g3), ?_⟩
        · simp only [if_true]
          rw [o1 hok]
          by_cases hne : m = n
          · subst hne; left; simp
          · rw [upd_ne _ _ hne, upd_ne _ _ hne]
            rcases old m hm hne with e | ⟨d', e⟩ | e
            · exact .inl e
            · exact .inr (.inl ⟨d', List.mem_append_left _ e⟩)
            · exact .inr (.inr e)
        · intro l' hl'; simp [i3 l' hl', hl']
      | false =>
        refine ⟨⟨p1, p2, fun m hm => ?_⟩, ls' ++ [l], ?_, ?_⟩
        · by_cases hne : m = n
          · subst hne; exact .inr (.inl ⟨d, by simp⟩)
          · have : objects base (tryPut base fs1 n d f).1 m = objects base fs1 m := by
              rcases o2 hok with e | ⟨k, e⟩
              · rw [e]
              · rw [e, upd_ne _ _ hne]
            rw [this]
            rcases old m hm hne with e | ⟨d', e⟩ | e
            · left; simpa using e
            · exact .inr (.inl ⟨d', List.mem_append_left _ e⟩)
            · exact .inr (.inr e)
        · have := i2.snoc g1
          simp only [Bool.false_eq_true, if_false]
          rw [← g3]; exact this
        · intro l' hl'; simp [i3 l' hl']

/-- **C73** An archive run into a directory that reports success leaves an archive there: opening the directory with the same key
gives every stripe as it was fetched, whatever was in the directory before. -/
theorem C73_archive (hc : c.Ok) {fs0 : FS} (ht : Tree fs0) (hb : fs0 base = some .dir)
    (h : ArchRun c base (St.init c (objects base fs0)) fs0 ls st fs) (hd : st.phase = .done)
    (hl : (c.P.encMap (entries c.count st.hashes)).length < 2 ^ 64) (hn : NoCollision c st) :
    Presents c ls c.kek (objects base fs) := by
  obtain ⟨hm, ls', hr, hls⟩ := h.mirror hc ht hb
  have hi := run_inv hr
  obtain ⟨m, m1, m2, -⟩ := hi.metaDone (.inr hd)
  obtain ⟨b, b1, b2, b3⟩ := hi.mapDone hd
  have hsame : ∀ n, ArchiveName n → objects base fs n = st.store n := by
    intro n hn
    rcases hm.same n hn with e | ⟨d, e⟩ | e
    · exact e
    · rw [b3] at e; cases e
    · rw [hd] at e; cases e
  have hcomp := hi.complete (.inr (.inr (.inl hd)))
  have hdes := mapping_round_trip hc.lawful (entries_range hc hcomp.hashed) hl b1
  have ho := open_meta hc m1 (st := objects base fs) (by rw [hsame _ .desc]; exact m2)
  rw [hsame _ .index, b2] at ho
  simp only [hdes] at ho
  refine ⟨_, ho, fun id len hid hlen => ?_⟩
  obtain ⟨r, r1, r2⟩ := complete_says hc hr hcomp hn hid hlen (st := objects base fs) fun hh o e1 e2 _ => by
    obtain ⟨o', e3, -⟩ := hcomp.stored id hh e1
    rw [hsame _ (.object _ (e3 ▸ hc.lawful.sha_len _))]; exact e2
  refine ⟨r, r1, ?_⟩
  rcases r2 with ⟨buf, a1, a2⟩ | ⟨a1, a2⟩
  · exact .inl ⟨buf, (hls _ (by simp)).1 a1, a2⟩
  · exact .inr ⟨fun buf hb => a1 buf ((hls _ (by simp)).2 hb), a2⟩

/-! ### Names of any kind -/

theorem split_slash (n m : List Char) : split (n ++ '/' :: m) = split n ++ split m := by
  induction n with
  | nil => simp [split]
  | cons c n ih =>
    simp only [List.cons_append, split, ih]
    split
    · simp
    · cases h : split n with
      | nil => exact absurd h (split_ne_nil n)
      | cons a b => simp

theorem mkdirs_walk (ps : List Name) (budget : Option Nat) {fs fs' : FS} {cur p : Path} (h : Tree fs) (hc : fs cur = some .dir)
    (he : mkdirs budget fs cur ps = (fs', some p)) :
    Tree fs' ∧ fs' p = some .dir ∧ (∀ q, fs q = some .dir → fs' q = some .dir) ∧ walk fs' cur ps = some p := by
  induction ps generalizing budget fs cur with
  | nil =>
    simp only [mkdirs, Prod.mk.injEq, Option.some.injEq] at he
    obtain ⟨rfl, rfl⟩ := he
    exact ⟨h, hc, fun _ hq => hq, by simp [walk, hc]⟩
  | cons c ps ih =>
    simp only [mkdirs] at he
    split at he
    · rename_i hcd
      have hup : fs cur.dropLast = some .dir := by
        cases hcur : cur.getLast? with
        | none => rw [List.getLast?_eq_none_iff] at hcur; subst hcur; exact hc
        | some z =>
          have : cur = cur.dropLast ++ [z] := by
            rw [List.dropLast_append_getLast?]
            simpa using hcur
          exact h.parent cur.dropLast z (by rw [← this, hc]; simp)
      obtain ⟨h1, h2, h3, h4⟩ := ih budget h hup he
      exact ⟨h1, h2, h3, by simp [walk, h3 _ hc, hcd, h4]⟩
    · rename_i hcd
      split at he
      · rename_i hd
        obtain ⟨h1, h2, h3, h4⟩ := ih budget h hd he
        exact ⟨h1, h2, h3, by simp [walk, h3 _ hc, hcd, h4]⟩
      · simp at he
      · rename_i hd
        split at he
        · simp at he
        · obtain ⟨h1, h2, h3, h4⟩ := ih _ (h.upd (c := c) (v := .dir) hc (.inl rfl)) (by simp) he
          have h3' : ∀ q, fs q = some .dir → fs' q = some .dir := by
            intro q hq
            refine h3 q ?_
            by_cases e : q = cur ++ [c]
            · subst e; simp
            · rw [upd_ne _ _ e]; exact hq
          exact ⟨h1, h2, h3', by simp [walk, h3' _ hc, hcd, h4]⟩

theorem walk_mono {fs fs' : FS} (hm : ∀ q, fs q = some .dir → fs' q = some .dir) (ps : List Name) {cur p : Path} (h : walk fs cur ps = some p) :
    walk fs' cur ps = some p := by
  induction ps generalizing cur with
  | nil =>
    simp only [walk] at h ⊢
    split at h
    · rename_i hc; rw [hm _ hc]; exact h
    · cases h
  | cons c ps ih =>
    simp only [walk] at h ⊢
    split at h
    · rename_i hc
      simp only [hm _ hc]
      split at h
      · rename_i e; simp only [e, if_true] at *; exact ih h
      · rename_i e; simp only [e, if_false]; exact ih h
    · cases h

/-- **C73** Whatever the name, also one with `..` or a slash in front: a put that is answered Ok is followed by a get of these bytes
under the same name. -/
theorem C73_read_back (h : Tree fs) (hb : fs base = some .dir) (hok : (tryPut base fs n d f).2 = true) :
    tryGet base (tryPut base fs n d f).1 n false = some d := by
  have hst : fs (start base n) = some .dir := by
    unfold start; split
    · exact h.root
    · exact hb
  unfold tryPut tryGet at *
  cases hl : (parts n).getLast? with
  | none => simp [hl] at hok
  | some l =>
    simp only [hl] at hok ⊢
    cases hm : mkdirs f.budget fs (start base n) (parts n).dropLast with
    | mk fs' op =>
      cases op with
      | none => simp [hm] at hok
      | some p =>
        obtain ⟨h1, h2, h3, h4⟩ := mkdirs_walk _ _ h hst hm
        simp only [hm] at hok ⊢
        by_cases hx : (l = dotdot || endsInSlash n) = true
        · simp [hx] at hok
        · simp only [hx, Bool.false_eq_true, if_false] at hok ⊢
          have hw : (write fs' (p ++ [l]) d f).1 = upd fs' (p ++ [l]) (some (.file d)) ∧ fs' (p ++ [l]) ≠ some .dir := by
            revert hok
            unfold write
            split
            · simp
            · rename_i hne
              split
              · simp
              · simp
              · exact fun _ => ⟨rfl, fun e => hne e⟩
          rw [hw.1]
          have := walk_mono (fs' := upd fs' (p ++ [l]) (some (.file d))) (fun q hq => by
            rw [upd_ne _ _ (by rintro rfl; exact hw.2 hq)]; exact hq) _ h4
          simp [this]

/-- **C73** A name that ends in a slash or in `/.` names no object: a put is refused and a get finds nothing. -/
theorem C73_slash (m : Name) (hm : m = [] ∨ m = ['.']) :
    (tryPut base fs (n ++ '/' :: m) d f).2 = false ∧ ∀ fail, tryGet base fs (n ++ '/' :: m) fail = none := by
  have he : endsInSlash (n ++ '/' :: m) = true := by
    unfold endsInSlash
    rw [split_slash]
    rcases hm with rfl | rfl <;> simp [split]
  constructor
  · unfold tryPut
    split
    · rfl
    · split
      · rfl
      · simp [he]
  · intro fail
    unfold tryGet
    split
    · rfl
    · split
      · rfl
      · simp [he]

/-! ## Other names -/

/-- A file system with the one directory `/b`. -/
def demoFs : FS := fun p => if p = [] ∨ p = [['b']] then some .dir else none

theorem demoFs_tree : Tree demoFs := by
  refine ⟨by simp [demoFs], fun p c h => ?_⟩
  have : p ++ [c] = [['b']] := by
    by_cases h1 : p ++ [c] = [['b']]
    · exact h1
    · exact absurd (show demoFs (p ++ [c]) = none by unfold demoFs; rw [if_neg]; rintro (e | e); exacts [by simp at e, h1 e]) h
  have hp : p = [] := by
    cases p with
    | nil => rfl
    | cons a t => simp at this
  subst hp; simp [demoFs]

theorem demo_ready : Ready [['b']] { fs := demoFs } := ⟨demoFs_tree, by simp [demoFs], rfl, rfl⟩

/-- C73_read_back: a name that leads out of the directory and back in. -/
example : (tryPut [['b']] demoFs "x/../../b/y".toList [1] .none).2 = true ∧
    tryGet [['b']] (tryPut [['b']] demoFs "x/../../b/y".toList [1] .none).1 "x/../../b/y".toList false = some [1] := by
  have h : (tryPut [['b']] demoFs "x/../../b/y".toList [1] .none).2 = true := by decide
  exact ⟨h, C73_read_back demoFs_tree (by simp [demoFs]) h⟩

/-- **C73 is false for arbitrary names**: a name that begins with a slash or goes up is written outside the directory. -/
theorem C73_false_outside :
    ((Store.act [['b']] { fs := demoFs } (.put ['.', '.', '/', 'x'] [1] .none)).2 = some (.put true) ∧
      (Store.act [['b']] { fs := demoFs } (.put ['.', '.', '/', 'x'] [1] .none)).1.fs [['x']] = some (.file [1])) ∧
    (Store.act [['b']] { fs := demoFs } (.put ['/', 'x'] [1] .none)).2 = some (.put true) ∧
      (Store.act [['b']] { fs := demoFs } (.put ['/', 'x'] [1] .none)).1.fs [['x']] = some (.file [1]) := by decide

/-- **C73 is false for arbitrary names**: two names can be one object, and one can stand in the way of another. -/
theorem C73_false_alias :
    (Store.acts [['b']] { fs := demoFs } [.put ['a'] [1] .none, .put ['.', '/', 'a'] [2] .none, .get ['a'] false]).2 =
      [some (.put true), some (.put true), some (.got (some [2]))] ∧
    (Store.acts [['b']] { fs := demoFs } [.put ['a'] [1] .none, .put ['a', '/', 'b'] [2] .none]).2 = [some (.put true), some (.put false)] := by decide

/-- **C73 is false after a timeout**, as for other stores (`C72_false`): a second put returns the answer of the first. -/
theorem C73_false_timeout :
    let s1 := (Store.putObject [['b']] { fs := demoFs } ['a'] [1] .none true).1
    (s1.putObject [['b']] ['a'] [2] .openFails false).2 = some true ∧
      (s1.putObject [['b']] ['a'] [2] .openFails false).1.fs [['b'], ['a']] = some (.file [1]) := by decide

/-! ## The hypotheses are met -/

/-- A sequence of calls: a put that is cut, one that succeeds, a get, while another program makes a file next to the directory. -/
example : Ready [['b']] { fs := demoFs } ∧
    Fair [['b']] { fs := demoFs } [.put ['d', '/', 'a'] [1, 2] (.cut 1), .put ['d', '/', 'a'] [1, 2] .none, .get ['d', '/', 'a'] false] ∧
    (Store.acts [['b']] { fs := demoFs } [.put ['d', '/', 'a'] [1, 2] (.cut 1), .put ['d', '/', 'a'] [1, 2] .none, .get ['d', '/', 'a'] false]).2 =
      [some (.put false), some (.put true), some (.got (some [1, 2]))] := by
  have hp : Plain ['d', '/', 'a'] := by
    intro p hp
    have : p = ['d'] ∨ p = ['a'] := by simpa [split] using hp
    rcases this with rfl | rfl <;> decide
  exact ⟨demo_ready, ⟨hp, hp, hp, trivial⟩, by decide⟩

/-- There is room for an archive in the demo directory. -/
theorem demo_room : ∀ n, ArchiveName n → Room [['b']] demoFs n := fun n hn =>
  room_empty (by simp [demoFs]) (fun p hp => by
    unfold demoFs
    rw [if_neg]
    rintro (e | e)
    · simp at e
    · simp only [List.cons_append, List.nil_append, List.cons.injEq, true_and] at e; exact hp e) hn.plain

/-- A whole archive run into the demo directory. -/
theorem demo_archive (x : UInt8) : ∃ ls st fs, ArchRun (twCfg x) [['b']] (St.init (twCfg x) (objects [['b']] demoFs)) demoFs ls st fs ∧ st.phase = .done ∧
    entries 1 st.hashes = [(0, .obj (toyQ.sha demoBuf))] ∧ ∀ id ok buf, Lab.fetched id ok buf ∈ ls → buf = demoBuf ∧ id = 0 := by
  have keep : ∀ {fs : FS} {n : Name} {d : Bytes}, Tree fs → fs [['b']] = some .dir → (∀ n, ArchiveName n → Room [['b']] fs n) → ArchiveName n →
      ∃ fs', tryPut [['b']] fs n d .none = (fs', true) ∧ Tree fs' ∧ fs' [['b']] = some .dir ∧ ∀ n, ArchiveName n → Room [['b']] fs' n := by
    intro fs n d h1 h2 h3 hn
    obtain ⟨p1, p2, -⟩ := tryPut_plain (d := d) (f := .none) h1 h2 hn.plain
    refine ⟨_, Prod.ext rfl (tryPut_room h1 h2 hn.plain (h3 n hn)), p1, p2, fun m hm => tryPut_keeps_room h1 h2 hn.plain (h3 m hm) ?_⟩
    by_cases e : n = m
    · exact .inl e
    · exact .inr ⟨hn.apart hm e, hm.apart hn (Ne.symm e)⟩
  obtain ⟨b, hb⟩ : ∃ b, serializeMapping (twCfg x).P
      (entries (twCfg x).count (upd (fun _ => none) 0 (some (.obj (toyQ.sha demoBuf))))) (twCfg x).hkey
        (twCfg x).keys = .ok b := ⟨_, rfl⟩
  obtain ⟨m, hm⟩ : ∃ m, archiveMeta (twCfg x) = .ok m := ⟨_, rfl⟩
  have hP : (twCfg x).P = toyQ := rfl
  obtain ⟨fs1, e1, a1, a2, a3⟩ := keep (d := demoBuf) demoFs_tree (by simp [demoFs]) demo_room (.object _ (toyQ_lawful.sha_len demoBuf))
  obtain ⟨fs2, e2, b1, b2, b3⟩ := keep (d := toyQ.encMeta m) a1 a2 a3 .desc
  obtain ⟨fs3, e3, -⟩ := keep (d := b) b1 b2 b3 .index
  have t0 : ArchRun (twCfg x) [['b']] (St.init (twCfg x) (objects [['b']] demoFs)) demoFs [] (St.init (twCfg x) (objects [['b']] demoFs)) demoFs := .nil _ _
  have t1 := t0.snoc (.act (.start _ rfl (by simp [twCfg, St.init]) rfl (by simp [twCfg, St.init]) true) rfl rfl (by simp [St.init]))
  simp only [if_true, St.init] at t1
  have g5 := Step.fetchDone (c := twCfg x) { free := (twCfg x).conc - 1, next := 1, fetching := [0], store := objects [['b']] demoFs }
    rfl 0 (by simp) true demoBuf (by simp [twCfg, demoBuf])
  simp only [if_true, upload, tw_made] at g5
  rw [if_neg (by simp)] at g5
  simp only [List.not_mem_nil, if_false, St.startPut, hP] at g5
  have t5 := t1.snoc (.put [] (objectKey (toyQ.sha demoBuf)) demoBuf .none g5 rfl rfl)
  simp only [e1, if_true, List.nil_append] at t5
  have t7 := t5.snoc (.act (.putDone _ rfl [] [] _ _ true true rfl (fun _ => rfl)) rfl rfl (by simp))
  simp only [List.nil_append, decide_true, Nat.zero_add, Nat.zero_lt_one, Bool.and_self, if_true] at t7
  simp only [hP] at hb
  have g8 : ∀ s7 : St, s7.phase = .running → s7.next = 1 → s7.fetching = [] → s7.inflight = 0 → s7.puts = [] →
      s7.hashes = upd (fun _ => none) 0 (some (.obj (toyQ.sha demoBuf))) →
      ArchRun (twCfg x) [['b']] (St.init (twCfg x) (objects [['b']] demoFs)) demoFs [.tau, .fetched 0 true demoBuf, .uploaded (objectKey (toyQ.sha demoBuf)) true] s7 fs1 →
      ∃ st fs, ArchRun (twCfg x) [['b']] (St.init (twCfg x) (objects [['b']] demoFs)) demoFs
        [.tau, .fetched 0 true demoBuf, .uploaded (objectKey (toyQ.sha demoBuf)) true, .tau, .uploaded metadataName true, .uploaded mappingName true] st fs ∧
        st.phase = .done ∧ entries 1 st.hashes = [(0, .obj (toyQ.sha demoBuf))] := by
    intro s7 k1 k2 k3 k4 k5 k6 t
    rw [← k6] at hb
    have g8 := Step.finish (c := twCfg x) s7 k1 k2 k3 k4
    have g8 : Step (twCfg x) s7 .tau { s7 with phase := .metaPut, puts := [] ++ [(metadataName, toyQ.encMeta m, false)], log := s7.log ++ [metadataName] } := by
      simp only [finish, hP, hb, hm, St.startPut, k5] at g8; exact g8
    have t8 := t.snoc (.put [] metadataName (toyQ.encMeta m) .none g8 rfl rfl)
    simp only [e2, if_true, List.nil_append] at t8
    have g9 := Step.metaDone (c := twCfg x)
      { s7 with phase := .metaPut, puts := [(metadataName, toyQ.encMeta m, true)], log := s7.log ++ [metadataName], store := upd s7.store metadataName (some (toyQ.encMeta m)) }
      rfl [] [] _ true true rfl (fun _ => rfl)
    simp only [if_true, publish, hP, hb, St.startPut, List.nil_append] at g9
    have t9 := t8.snoc (.put [] mappingName b .none g9 rfl rfl)
    simp only [e3, if_true, List.nil_append] at t9
    have t10 := t9.snoc (.act (.mapDone _ rfl [] [] _ true true rfl (fun _ => rfl)) rfl rfl (by simp))
    exact ⟨_, _, t10, rfl, by simp only [if_true, k6]; rfl⟩
  obtain ⟨st, fs, h1, h2, h3⟩ := g8 _ rfl rfl (by simp) rfl rfl rfl t7
  exact ⟨_, st, fs, h1, h2, h3, by simp⟩

/-- The hypotheses of `C73_archive` are met. -/
example : ∃ ls st fs, ArchRun (twCfg 0) [['b']] (St.init (twCfg 0) (objects [['b']] demoFs)) demoFs ls st fs ∧ st.phase = .done ∧
    Presents (twCfg 0) ls (twCfg 0).kek (objects [['b']] fs) := by
  obtain ⟨ls, st, fs, h1, h2, h3, h4⟩ := demo_archive 0
  refine ⟨ls, st, fs, h1, h2, ?_⟩
  obtain ⟨-, ls', hr, hls⟩ := h1.mirror (twCfg_ok 0) demoFs_tree (by simp [demoFs])
  have hl : ∀ id ok buf, Lab.fetched id ok buf ∈ ls' → buf = demoBuf ∧ id = 0 := fun id ok buf hm => h4 _ _ _ ((hls _ (by simp)).1 hm)
  refine C73_archive (twCfg_ok 0) demoFs_tree (by simp [demoFs]) h1 h2 ?_ fun o o' ho ho' _ => by rw [tw_only hr hl ho, tw_only hr hl ho']
  show (toyQ.encMap (entries 1 st.hashes)).length < _
  rw [h3]
  simp only [toyQ, toyP, encEntries, encSpec, List.length_append, List.length_cons, List.length_take, le_length, List.length_nil]
  omega

end Verif.Dir
