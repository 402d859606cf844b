import Verif.Model.S3
import Verif.Props.Load

/-! # Object keys (C48) and the S3 store (C60) -/

namespace Verif.S3
open Verif Verif.Disk Verif.Config

/-! ## C48: keys -/

/-- The part of a prefix between its leading and trailing slashes. -/
def IsCore (p c : List Char) : Prop :=
  c.head? ≠ some '/' ∧ c.getLast? ≠ some '/' ∧ ∃ a b, p = List.replicate a '/' ++ c ++ List.replicate b '/'

theorem dropWhile_slash (p : List Char) : ∃ a, p = List.replicate a '/' ++ p.dropWhile (· = '/') ∧ (p.dropWhile (· = '/')).head? ≠ some '/' := by
  induction p with
  | nil => exact ⟨0, rfl, by simp⟩
  | cons x p ih =>
    by_cases hx : x = '/'
    · obtain ⟨a, h1, h2⟩ := ih
      subst hx
      refine ⟨a + 1, ?_, by simpa using h2⟩
      rw [List.replicate_succ, List.cons_append]
      simpa using h1
    · exact ⟨0, by simp [hx], by simp [hx]⟩

theorem trimSlash_core (p : List Char) : IsCore p (trimSlash p) := by
  obtain ⟨a, h1, h2⟩ := dropWhile_slash p
  unfold trimSlash
  generalize p.dropWhile (· = '/') = q at *
  obtain ⟨b, h3, h4⟩ := dropWhile_slash q.reverse
  generalize hr : q.reverse.dropWhile (· = '/') = r at *
  have hq : q = r.reverse ++ List.replicate b '/' := by
    have := congrArg List.reverse h3
    simpa using this
  refine ⟨?_, ?_, a, b, ?_⟩
  · intro hc
    rw [hq] at h2
    cases hrr : r.reverse with
    | nil => rw [hrr] at hc; cases hc
    | cons x xs => rw [hrr] at hc h2; exact h2 hc
  · rw [List.getLast?_reverse]; exact h4
  · rw [List.append_assoc, ← hq]; exact h1

theorem replicate_prefix {a a' : Nat} {x y : List Char} (hx : x.head? ≠ some '/') (hy : y.head? ≠ some '/')
    (h : List.replicate a '/' ++ x = List.replicate a' '/' ++ y) : x = y := by
  induction a generalizing a' with
  | zero =>
    cases a' with
    | zero => exact h
    | succ a' =>
      rw [List.replicate_zero, List.nil_append] at h
      subst h; exact absurd rfl hx
  | succ a ih =>
    cases a' with
    | zero =>
      rw [List.replicate_zero, List.nil_append] at h
      subst h; exact absurd rfl hy
    | succ a' =>
      rw [List.replicate_succ, List.replicate_succ, List.cons_append, List.cons_append] at h
      exact ih (List.cons.inj h).2

/-- A prefix has one core. -/
theorem core_unique {p c c' : List Char} (h : IsCore p c) (h' : IsCore p c') : c = c' := by
  obtain ⟨h1, h2, a, b, h3⟩ := h
  obtain ⟨h1', h2', a', b', h3'⟩ := h'
  have tail : ∀ {c : List Char} {b : Nat}, c ≠ [] → c.head? ≠ some '/' → (c ++ List.replicate b '/').head? ≠ some '/' := by
    intro c b hc h
    cases c with
    | nil => exact absurd rfl hc
    | cons x xs => exact h
  have slashes : ∀ {c : List Char} {a b n : Nat}, List.replicate n '/' = List.replicate a '/' ++ c ++ List.replicate b '/' →
      c.head? ≠ some '/' → c = [] := by
    intro c a b n h hc
    cases c with
    | nil => rfl
    | cons x xs =>
      have : x ∈ List.replicate n '/' := by rw [h]; simp
      exact absurd (by rw [List.eq_of_mem_replicate this]; rfl) hc
  by_cases hc : c = []
  · subst hc
    rw [h3, List.append_nil, List.replicate_append_replicate] at h3'
    exact (slashes h3' h1').symm
  · by_cases hc' : c' = []
    · subst hc'
      rw [h3', List.append_nil, List.replicate_append_replicate] at h3
      exact absurd (slashes h3 h1) hc
    · rw [h3, List.append_assoc, List.append_assoc] at h3'
      have := congrArg List.reverse (replicate_prefix (tail hc h1) (tail hc' h1') h3')
      simp only [List.reverse_append, List.reverse_replicate] at this
      have := replicate_prefix (by rwa [List.head?_reverse]) (by rwa [List.head?_reverse]) this
      exact List.reverse_inj.mp this

/-- C48: the key of an object is the prefix without the slashes around it, a slash, and the name; the name alone if nothing is left of the
prefix. -/
theorem C48_key {p c : List Char} (hc : IsCore p c) (name : List Char) : key (some p) name = if c = [] then name else c ++ '/' :: name := by
  rw [core_unique hc (trimSlash_core p)]
  unfold key normPrefix keyWithPrefix
  by_cases h : trimSlash p = []
  · simp [h]
  · simp [h, List.isEmpty_iff]

/-- C48: every prefix has a core, so `C48_key` determines every key. -/
theorem C48_core (p : List Char) : ∃ c, IsCore p c ∧ ∀ c', IsCore p c' → c' = c := ⟨_, trimSlash_core p, fun _ h => core_unique h (trimSlash_core p)⟩

/-- C48: no prefix, no change. -/
theorem C48_no_prefix (name : List Char) : key none name = name := rfl

/-- C48: prefixes that differ only in the slashes around them give the same keys. -/
theorem C48_slashes (p : List Char) (a b : Nat) (name : List Char) :
    key (some (List.replicate a '/' ++ p ++ List.replicate b '/')) name = key (some p) name := by
  obtain ⟨h1, h2, x, y, h3⟩ := trimSlash_core p
  have hc : IsCore (List.replicate a '/' ++ p ++ List.replicate b '/') (trimSlash p) := by
    refine ⟨h1, h2, a + x, y + b, ?_⟩
    rw [← List.replicate_append_replicate, ← List.replicate_append_replicate]
    conv => lhs; rw [h3]
    simp only [List.append_assoc]
  rw [C48_key hc, C48_key (trimSlash_core p)]

/-- C48: distinct names have distinct keys. -/
theorem C48_injective (pfx : Option (List Char)) {n n' : List Char} (h : key pfx n = key pfx n') : n = n' := by
  unfold key keyWithPrefix at h
  split at h
  · exact List.append_cancel_left h
  · exact h

/-- C48: the prefix of an accepted configuration does not lead out of the place it names: every `..` in a key comes from the object's
name. -/
theorem C48_no_parent {p : String} (h : prefixOk (some p) = true) (name : List Char) :
    ['.', '.'] ∈ pieces (key (some p.toList) name) → ['.', '.'] ∈ pieces name := by
  intro hm
  obtain ⟨_, _, a, b, h3⟩ := trimSlash_core p.toList
  rw [C48_key (trimSlash_core p.toList)] at hm
  split at hm
  · exact hm
  · rw [pieces_append, List.mem_append] at hm
    rcases hm with hm | hm
    · exfalso
      have hp : ['.', '.'] ∈ pieces p.toList := by
        rw [h3]
        have front : ∀ n (x : List Char), ['.', '.'] ∈ pieces x → ['.', '.'] ∈ pieces (List.replicate n '/' ++ x) := by
          intro n x hx
          induction n with
          | zero => exact hx
          | succ n ih =>
            rw [List.replicate_succ, List.cons_append, pieces, if_pos rfl]
            exact List.mem_cons_of_mem _ ih
        have back : ∀ n (x : List Char), ['.', '.'] ∈ pieces x → ['.', '.'] ∈ pieces (x ++ List.replicate n '/') := by
          intro n x hx
          cases n with
          | zero => simpa using hx
          | succ n => rw [List.replicate_succ, pieces_append]; exact List.mem_append_left _ hx
        exact back _ _ (front _ _ hm)
      have hc : Comp.parent ∈ components p.toList := by
        unfold components
        split
        · exact List.mem_cons_of_mem _ (List.mem_filterMap.mpr ⟨_, hp, rfl⟩)
        · split
          · rename_i hnil; rw [hnil] at hp; cases hp
          · rename_i s ss hcons
            rw [hcons] at hp
            rcases List.mem_cons.mp hp with rfl | hp
            · exact List.mem_append_left _ (by simp [pieceComp])
            · exact List.mem_append_right _ (List.mem_filterMap.mpr ⟨_, hp, rfl⟩)
      simp only [prefixOk, Bool.not_eq_true', List.any_eq_false] at h
      have := h _ hc
      simp at this
    · exact hm

/-! ## C60: the store -/

def Ev.startsPut (n : List Char) : Ev → Bool
  | .startPut m _ => m = n
  | _ => false
def Ev.startsGet (n : List Char) : Ev → Bool
  | .startGet m => m = n
  | _ => false
def Ev.reportsPut (n : List Char) : Ev → Bool
  | .report (.put m _) => m = n
  | _ => false
def Ev.reportsGet (n : List Char) : Ev → Bool
  | .report (.get m _) => m = n
  | _ => false
def Job.isPut (n : List Char) : Job → Bool
  | .put m _ _ => m = n
  | _ => false
def Job.isGet (n : List Char) : Job → Bool
  | .get m _ => m = n
  | _ => false
def Res.isPut (n : List Char) : Res → Bool
  | .put m _ => m = n
  | _ => false
def Res.isGet (n : List Char) : Res → Bool
  | .get m _ => m = n
  | _ => false

variable {pfx : Option (List Char)} {b0 : List Char → Option Bytes} {es : List Ev} {s : St}

theorem counts (h : Run pfx b0 es s) (n : List Char) :
    es.countP (Ev.startsPut n) = es.countP (Ev.reportsPut n) + s.queue.countP (Job.isPut n) + s.busy.countP (Job.isPut n) + s.done.countP (Res.isPut n) ∧
    es.countP (Ev.startsGet n) = es.countP (Ev.reportsGet n) + s.queue.countP (Job.isGet n) + s.busy.countP (Job.isGet n) + s.done.countP (Res.isGet n) := by
  induction h with
  | nil => exact ⟨rfl, rfl⟩
  | snoc _ hst ih =>
    obtain ⟨i1, i2⟩ := ih
    cases hst with
    | startPut m d =>
      simp only [List.countP_append, List.countP_cons, List.countP_nil, Ev.startsPut, Ev.startsGet, Ev.reportsPut, Ev.reportsGet, Job.isPut, Job.isGet]
      simp; omega
    | startGet m =>
      simp only [List.countP_append, List.countP_cons, List.countP_nil, Ev.startsPut, Ev.startsGet, Ev.reportsPut, Ev.reportsGet, Job.isPut, Job.isGet]
      simp; omega
    | take j q hq =>
      rw [hq] at i1 i2
      simp only [List.countP_append, List.countP_cons, List.countP_nil, List.append_nil] at *
      omega
    | putOk pre post m k d hb =>
      rw [hb] at i1 i2
      simp only [List.countP_append, List.countP_cons, List.countP_nil, List.append_nil, Job.isPut, Job.isGet, Res.isPut, Res.isGet] at *
      simp only [decide_eq_true_eq, Bool.false_eq_true, if_false] at *
      omega
    | putErr pre post m k d ha hb =>
      rw [hb] at i1 i2
      simp only [List.countP_append, List.countP_cons, List.countP_nil, List.append_nil, Job.isPut, Job.isGet, Res.isPut, Res.isGet] at *
      simp only [decide_eq_true_eq, Bool.false_eq_true, if_false] at *
      omega
    | getOk pre post m k hb =>
      rw [hb] at i1 i2
      simp only [List.countP_append, List.countP_cons, List.countP_nil, List.append_nil, Job.isPut, Job.isGet, Res.isPut, Res.isGet] at *
      simp only [decide_eq_true_eq, Bool.false_eq_true, if_false] at *
      omega
    | getErr pre post m k hb =>
      rw [hb] at i1 i2
      simp only [List.countP_append, List.countP_cons, List.countP_nil, List.append_nil, Job.isPut, Job.isGet, Res.isPut, Res.isGet] at *
      simp only [decide_eq_true_eq, Bool.false_eq_true, if_false] at *
      omega
    | report pre post r hd =>
      rw [hd] at i1 i2
      cases r <;>
      · simp only [List.countP_append, List.countP_cons, List.countP_nil, Ev.startsPut, Ev.startsGet, Ev.reportsPut, Ev.reportsGet, Res.isPut, Res.isGet] at *
        simp only [decide_eq_true_eq, Bool.false_eq_true, if_false] at *
        omega
    | foreign k v hk =>
      simp only [List.append_nil] at *
      exact ⟨i1, i2⟩

/-- C60: no operation is reported more often than it was started, and each has been reported once when nothing is left in the store. -/
theorem C60_reported_once (h : Run pfx b0 es s) (n : List Char) :
    es.countP (Ev.reportsPut n) ≤ es.countP (Ev.startsPut n) ∧ es.countP (Ev.reportsGet n) ≤ es.countP (Ev.startsGet n) ∧
      (s.queue = [] → s.busy = [] → s.done = [] →
        es.countP (Ev.reportsPut n) = es.countP (Ev.startsPut n) ∧ es.countP (Ev.reportsGet n) = es.countP (Ev.startsGet n)) := by
  obtain ⟨h1, h2⟩ := counts h n
  refine ⟨by omega, by omega, ?_⟩
  intro q b d
  rw [q, b, d] at h1 h2
  simp only [List.countP_nil] at h1 h2
  omega

/-- Every run can be continued to one where nothing is left in the store. -/
theorem C60_drains (h : Run pfx b0 es s) : ∃ es' s', Run pfx b0 (es ++ es') s' ∧ s'.queue = [] ∧ s'.busy = [] ∧ s'.done = [] ∧
    ∀ e ∈ es', ∃ r, e = .report r := by
  have key : ∀ m s es, Run pfx b0 es s → 3 * s.queue.length + 2 * s.busy.length + s.done.length = m →
      ∃ es' s', Run pfx b0 (es ++ es') s' ∧ s'.queue = [] ∧ s'.busy = [] ∧ s'.done = [] ∧ ∀ e ∈ es', ∃ r, e = .report r := by
    intro m
    induction m using Nat.strongRecOn with
    | ind m ih =>
      intro s es h hm
      have go : ∀ {x s'}, Step pfx s x s' → (∀ e ∈ x, ∃ r, e = Ev.report r) →
          3 * s'.queue.length + 2 * s'.busy.length + s'.done.length < m →
          ∃ es' s', Run pfx b0 (es ++ es') s' ∧ s'.queue = [] ∧ s'.busy = [] ∧ s'.done = [] ∧ ∀ e ∈ es', ∃ r, e = .report r := by
        intro x s' hst hx hlt
        obtain ⟨es', t, h1, h2, h3, h4, h5⟩ := ih _ hlt s' (es ++ x) (.snoc h hst) rfl
        refine ⟨x ++ es', t, by rw [← List.append_assoc]; exact h1, h2, h3, h4, ?_⟩
        intro e he
        rcases List.mem_append.mp he with he | he
        · exact hx e he
        · exact h5 e he
      cases hq : s.queue with
      | cons j q =>
        refine go (.take s j q hq) (by simp) ?_
        simp only [List.length_append, List.length_cons, List.length_nil]
        rw [hq, List.length_cons] at hm; omega
      | nil =>
        cases hb : s.busy with
        | cons j q =>
          cases j with
          | put n k d =>
            refine go (.putErr s [] q n k d false hb) (by simp) ?_
            simp only [List.length_append, List.length_cons, List.length_nil, List.nil_append]
            rw [hb, List.length_cons] at hm; omega
          | get n k =>
            refine go (.getErr s [] q n k hb) (by simp) ?_
            simp only [List.length_append, List.length_cons, List.length_nil, List.nil_append]
            rw [hb, List.length_cons] at hm; omega
        | nil =>
          cases hd : s.done with
          | cons r q =>
            refine go (.report s [] q r hd) (by simp) ?_
            simp only [List.nil_append]
            rw [hd, List.length_cons] at hm; omega
          | nil => exact ⟨[], s, by simpa using h, hq, hb, hd, by simp⟩
  exact key _ s es h rfl

/-- What holds of the jobs and the bucket. -/
theorem jobs_inv (h : Run pfx b0 es s) :
    (∀ n k d, Job.put n k d ∈ s.queue ∨ Job.put n k d ∈ s.busy → k = key pfx n ∧ Ev.startPut n d ∈ es) ∧
    (∀ n k, Job.get n k ∈ s.queue ∨ Job.get n k ∈ s.busy → k = key pfx n) ∧
    (∀ n d, s.bucket (key pfx n) = some d → b0 (key pfx n) = some d ∨ Ev.startPut n d ∈ es) := by
  induction h with
  | nil => exact ⟨by simp, by simp, fun n d h => Or.inl h⟩
  | @snoc es es' s s' hr hst ih =>
    obtain ⟨i1, i2, i3⟩ := ih
    have j1 : ∀ n k d, Job.put n k d ∈ s.queue ∨ Job.put n k d ∈ s.busy → k = key pfx n ∧ Ev.startPut n d ∈ es ++ es' :=
      fun n k d h => ⟨(i1 n k d h).1, List.mem_append_left _ (i1 n k d h).2⟩
    have j3 : ∀ n d, s.bucket (key pfx n) = some d → b0 (key pfx n) = some d ∨ Ev.startPut n d ∈ es ++ es' :=
      fun n d h => (i3 n d h).imp_right (List.mem_append_left _)
    have sub : ∀ {pre post : List Job} {j x : Job}, s.busy = pre ++ j :: post → x ∈ pre ++ post → x ∈ s.busy := by
      intro pre post j x h hx
      rw [h]
      rcases List.mem_append.mp hx with hx | hx
      · exact List.mem_append_left _ hx
      · exact List.mem_append_right _ (List.mem_cons_of_mem _ hx)
    cases hst with
    | startPut m d =>
      refine ⟨?_, ?_, j3⟩
      · rintro n k x (h | h)
        · rcases List.mem_append.mp h with h | h
          · exact j1 n k x (Or.inl h)
          · rw [List.mem_singleton] at h; cases h; exact ⟨rfl, by simp⟩
        · exact j1 n k x (Or.inr h)
      · rintro n k (h | h)
        · rcases List.mem_append.mp h with h | h
          · exact i2 n k (Or.inl h)
          · rw [List.mem_singleton] at h; cases h
        · exact i2 n k (Or.inr h)
    | startGet m =>
      refine ⟨?_, ?_, j3⟩
      · rintro n k x (h | h)
        · rcases List.mem_append.mp h with h | h
          · exact j1 n k x (Or.inl h)
          · rw [List.mem_singleton] at h; cases h
        · exact j1 n k x (Or.inr h)
      · rintro n k (h | h)
        · rcases List.mem_append.mp h with h | h
          · exact i2 n k (Or.inl h)
          · rw [List.mem_singleton] at h; cases h; rfl
        · exact i2 n k (Or.inr h)
    | take j q hq =>
      have mv : ∀ x, (x ∈ q ∨ x ∈ s.busy ++ [j]) → x ∈ s.queue ∨ x ∈ s.busy := by
        rintro x (h | h)
        · rw [hq]; exact Or.inl (List.mem_cons_of_mem _ h)
        · rcases List.mem_append.mp h with h | h
          · exact Or.inr h
          · rw [List.mem_singleton] at h; subst h; rw [hq]; exact Or.inl List.mem_cons_self
      exact ⟨fun n k d h => j1 n k d (mv _ h), fun n k h => i2 n k (mv _ h), j3⟩
    | putOk pre post m k d hb =>
      refine ⟨fun n k d h => j1 n k d (h.imp_right (sub hb)), fun n k h => i2 n k (h.imp_right (sub hb)), ?_⟩
      have hm := j1 m k d (Or.inr (by rw [hb]; simp))
      intro n x hx
      simp only [upd] at hx
      split at hx
      · rename_i he
        rw [hm.1] at he
        cases hx
        rw [C48_injective pfx he]
        exact Or.inr hm.2
      · exact j3 n x hx
    | putErr pre post m k d ha hb =>
      refine ⟨fun n k d h => j1 n k d (h.imp_right (sub hb)), fun n k h => i2 n k (h.imp_right (sub hb)), ?_⟩
      have hm := j1 m k d (Or.inr (by rw [hb]; simp))
      intro n x hx
      simp only at hx
      split at hx
      · simp only [upd] at hx
        split at hx
        · rename_i he
          rw [hm.1] at he
          cases hx
          rw [C48_injective pfx he]
          exact Or.inr hm.2
        · exact j3 n x hx
      · exact j3 n x hx
    | getOk pre post m k hb => exact ⟨fun n k d h => j1 n k d (h.imp_right (sub hb)), fun n k h => i2 n k (h.imp_right (sub hb)), j3⟩
    | getErr pre post m k hb => exact ⟨fun n k d h => j1 n k d (h.imp_right (sub hb)), fun n k h => i2 n k (h.imp_right (sub hb)), j3⟩
    | report pre post r hd => exact ⟨j1, i2, j3⟩
    | foreign k v hk =>
      refine ⟨j1, i2, ?_⟩
      intro n x hx
      simp only [upd] at hx
      rw [if_neg (fun he => hk n he.symm)] at hx
      exact j3 n x hx

theorem get_inv (h : Run pfx b0 es s) : ∀ n x, (Res.get n (some x) ∈ s.done ∨ Ev.report (.get n (some x)) ∈ es) →
    b0 (key pfx n) = some x ∨ Ev.startPut n x ∈ es := by
  induction h with
  | nil => simp
  | @snoc es es' s s' hr hst ih =>
    obtain ⟨_, j2, j3⟩ := jobs_inv hr
    have old : ∀ n x, (Res.get n (some x) ∈ s.done ∨ Ev.report (.get n (some x)) ∈ es) → b0 (key pfx n) = some x ∨ Ev.startPut n x ∈ es ++ es' :=
      fun n x h => (ih n x h).imp_right (List.mem_append_left _)
    intro n x hx
    cases hst with
    | startPut m d => exact old n x (by simpa using hx)
    | startGet m => exact old n x (by simpa using hx)
    | take j q hq => exact old n x (by simpa using hx)
    | putOk pre post m k d hb => exact old n x (by simpa using hx)
    | putErr pre post m k d ha hb => exact old n x (by simpa using hx)
    | getOk pre post m k hb =>
      simp only [List.mem_append, List.mem_singleton, Res.get.injEq, List.append_nil] at hx
      rcases hx with (hx | ⟨rfl, hx⟩) | hx
      · exact old n x (Or.inl hx)
      · rw [j2 n k (Or.inr (by rw [hb]; simp))] at hx
        exact (j3 n x hx.symm).imp_right (List.mem_append_left _)
      · exact old n x (Or.inr hx)
    | getErr pre post m k hb => exact old n x (by simpa using hx)
    | report pre post r hd =>
      refine old n x ?_
      simp only [List.mem_append, List.mem_singleton, Ev.report.injEq] at hx
      rw [hd]
      rcases hx with hx | hx | hx
      · left; rcases hx with hx | hx <;> simp [hx]
      · exact Or.inr hx
      · left; rw [hx]; simp
    | foreign k v hk => exact old n x (by simpa using hx)

/-- C60: a download reports only what was uploaded under that very name, or was in the bucket under its key before. -/
theorem C60_provenance (h : Run pfx b0 es s) {n : List Char} {x : Bytes} (hx : Ev.report (.get n (some x)) ∈ es) :
    b0 (key pfx n) = some x ∨ Ev.startPut n x ∈ es := get_inv h n x (Or.inr hx)

/-- Uploads of `n` all have the contents `d`. -/
def OnlyPuts (n : List Char) (d : Bytes) (es : List Ev) : Prop := ∀ d', Ev.startPut n d' ∈ es → d' = d

/-- Every download of `n` was started after a successful upload of `n` was reported. -/
def GetsAfterPut (n : List Char) (es : List Ev) : Prop := ∀ a c, es = a ++ .startGet n :: c → Ev.report (.put n true) ∈ a

theorem OnlyPuts.left {n d} {es es' : List Ev} (h : OnlyPuts n d (es ++ es')) : OnlyPuts n d es := fun x hx => h x (List.mem_append_left _ hx)

theorem GetsAfterPut.left {n} {es es' : List Ev} (h : GetsAfterPut n (es ++ es')) : GetsAfterPut n es :=
  fun a c he => h a (c ++ es') (by rw [he]; simp)

theorem put_inv {n d} (h : Run pfx b0 es s) (ho : OnlyPuts n d es) :
    (Res.put n true ∈ s.done ∨ Ev.report (.put n true) ∈ es) → s.bucket (key pfx n) = some d := by
  induction h with
  | nil => simp
  | @snoc es es' s s' hr hst ih =>
    obtain ⟨j1, _, _⟩ := jobs_inv hr
    have ih := ih ho.left
    intro hx
    cases hst with
    | startPut m d => exact ih (by simpa using hx)
    | startGet m => exact ih (by simpa using hx)
    | take j q hq => exact ih (by simpa using hx)
    | putOk pre post m k x hb =>
      have hm := j1 m k x (Or.inr (by rw [hb]; simp))
      simp only [upd]
      split
      · rename_i he
        rw [hm.1] at he
        have := C48_injective pfx he
        subst this
        rw [ho x (List.mem_append_left _ hm.2)]
      · rename_i he
        apply ih
        simp only [List.mem_append, List.mem_singleton, Res.put.injEq, List.append_nil, and_true] at hx
        rcases hx with (hx | hx) | hx
        · exact Or.inl hx
        · rw [hx, hm.1] at he; exact absurd rfl he
        · exact Or.inr hx
    | putErr pre post m k x ha hb =>
      have hm := j1 m k x (Or.inr (by rw [hb]; simp))
      have ih := ih (by simpa using hx)
      simp only
      split
      · simp only [upd]
        split
        · rename_i he
          rw [hm.1] at he
          have := C48_injective pfx he
          subst this
          rw [ho x (List.mem_append_left _ hm.2)]
        · exact ih
      · exact ih
    | getOk pre post m k hb => exact ih (by simpa using hx)
    | getErr pre post m k hb => exact ih (by simpa using hx)
    | report pre post r hd =>
      apply ih
      simp only [List.mem_append, List.mem_singleton, Ev.report.injEq] at hx
      rw [hd]
      rcases hx with hx | hx | hx
      · left; rcases hx with hx | hx <;> simp [hx]
      · exact Or.inr hx
      · left; rw [hx]; simp
    | foreign k v hk =>
      simp only [upd]
      rw [if_neg (fun he => hk n he.symm)]
      exact ih (by simpa using hx)

theorem read_inv {n d} (h : Run pfx b0 es s) (ho : OnlyPuts n d es) (hg : GetsAfterPut n es) :
    (∀ k, Job.get n k ∈ s.queue ∨ Job.get n k ∈ s.busy → Ev.report (.put n true) ∈ es) ∧
    (∀ x, Res.get n (some x) ∈ s.done ∨ Ev.report (.get n (some x)) ∈ es → x = d) := by
  induction h with
  | nil => simp
  | @snoc es es' s s' hr hst ih =>
    obtain ⟨i1, i2⟩ := ih ho.left hg.left
    have j1 : ∀ k, Job.get n k ∈ s.queue ∨ Job.get n k ∈ s.busy → Ev.report (.put n true) ∈ es ++ es' :=
      fun k h => List.mem_append_left _ (i1 k h)
    have sub : ∀ {pre post : List Job} {j x : Job}, s.busy = pre ++ j :: post → x ∈ pre ++ post → x ∈ s.busy := by
      intro pre post j x h hx
      rw [h]
      rcases List.mem_append.mp hx with hx | hx
      · exact List.mem_append_left _ hx
      · exact List.mem_append_right _ (List.mem_cons_of_mem _ hx)
    cases hst with
    | startPut m x => exact ⟨fun k h => j1 k (by simpa using h), fun x h => i2 x (by simpa using h)⟩
    | startGet m =>
      refine ⟨fun k h => ?_, fun x h => i2 x (by simpa using h)⟩
      rcases h with h | h
      · rcases List.mem_append.mp h with h | h
        · exact j1 k (Or.inl h)
        · rw [List.mem_singleton] at h; cases h
          exact List.mem_append_left _ (hg es [] rfl)
      · exact j1 k (Or.inr h)
    | take j q hq =>
      refine ⟨fun k h => j1 k ?_, fun x h => i2 x (by simpa using h)⟩
      rcases h with h | h
      · rw [hq]; exact Or.inl (List.mem_cons_of_mem _ h)
      · rcases List.mem_append.mp h with h | h
        · exact Or.inr h
        · rw [List.mem_singleton] at h; subst h; rw [hq]; exact Or.inl List.mem_cons_self
    | putOk pre post m k x hb => exact ⟨fun k h => j1 k (h.imp_right (sub hb)), fun x h => i2 x (by simpa using h)⟩
    | putErr pre post m k x ha hb => exact ⟨fun k h => j1 k (h.imp_right (sub hb)), fun x h => i2 x (by simpa using h)⟩
    | getOk pre post m k hb =>
      refine ⟨fun k h => j1 k (h.imp_right (sub hb)), fun x hx => ?_⟩
      simp only [List.mem_append, List.mem_singleton, Res.get.injEq, List.append_nil] at hx
      rcases hx with (hx | ⟨rfl, hx⟩) | hx
      · exact i2 x (Or.inl hx)
      · have hk := (jobs_inv hr).2.1 n k (Or.inr (by rw [hb]; simp))
        have := put_inv hr ho.left (Or.inr (i1 k (Or.inr (by rw [hb]; simp))))
        rw [hk, this] at hx
        exact Option.some.inj hx
      · exact i2 x (Or.inr hx)
    | getErr pre post m k hb => exact ⟨fun k h => j1 k (h.imp_right (sub hb)), fun x h => i2 x (by simpa using h)⟩
    | report pre post r hd =>
      refine ⟨j1, fun x hx => i2 x ?_⟩
      simp only [List.mem_append, List.mem_singleton, Ev.report.injEq] at hx
      rw [hd]
      rcases hx with hx | hx | hx
      · left; rcases hx with hx | hx <;> simp [hx]
      · exact Or.inr hx
      · left; rw [hx]; simp
    | foreign k v hk => exact ⟨fun k h => j1 k (by simpa using h), fun x h => i2 x (by simpa using h)⟩

/-- C60: once an upload has been reported successful, a download started later reports those bytes (or an error), unless other bytes were
uploaded under the same name. -/
theorem C60_read_back {n : List Char} {d x : Bytes} (h : Run pfx b0 es s) (ho : OnlyPuts n d es) (hg : GetsAfterPut n es)
    (hx : Ev.report (.get n (some x)) ∈ es) : x = d := (read_inv h ho hg).2 x (Or.inr hx)

/-- The bucket holds the bytes from then on. -/
theorem C60_stored {n : List Char} {d : Bytes} (h : Run pfx b0 es s) (ho : OnlyPuts n d es) (hx : Ev.report (.put n true) ∈ es) :
    s.bucket (key pfx n) = some d := put_inv h ho (Or.inr hx)

/-! ## Examples -/

/-- C48: a prefix with slashes around it, one that is all slashes. -/
example : key (some "//a/b/".toList) "x".toList = "a/b/x".toList ∧ key (some "//".toList) "x".toList = "x".toList ∧
    prefixOk (some "a/..b") = true ∧ prefixOk (some "a/../b") = false := by decide

/-- C60: an upload, its report, a download and its report. -/
example : ∃ es s, Run (some ['p']) (fun _ => none) es s ∧ OnlyPuts ['x'] [1] es ∧ GetsAfterPut ['x'] es ∧
    Ev.report (.get ['x'] (some [1])) ∈ es := by
  have r1 := Run.snoc (pfx := some ['p']) (b0 := fun _ => none) .nil (.startPut _ ['x'] [1])
  have r2 := Run.snoc r1 (.take _ _ [] rfl)
  have r3 := Run.snoc r2 (.putOk _ [] [] ['x'] _ [1] rfl)
  have r4 := Run.snoc r3 (.report _ [] [] (.put ['x'] true) rfl)
  have r5 := Run.snoc r4 (.startGet _ ['x'])
  have r6 := Run.snoc r5 (.take _ _ [] rfl)
  have r7 := Run.snoc r6 (.getOk _ [] [] ['x'] _ rfl)
  have r8 := Run.snoc r7 (.report _ [] [] (.get ['x'] (some [1])) rfl)
  refine ⟨_, _, r8, ?_, ?_, ?_⟩
  · intro d' h
    simpa using h
  · intro a c h
    match a, h with
    | [_, _], h => cases h; simp
    | [], h => cases h
    | [_], h => cases h
    | [_, _, _], h => cases h
    | _ :: _ :: _ :: _ :: t, h => simp at h
  · simp

end Verif.S3
