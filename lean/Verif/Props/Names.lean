import Verif.Spec.Names
import Mathlib.Data.List.Induction

/-! # C75: names in the file system -/

namespace Verif.Names
open Verif

variable {cfg : Nat → Conf} {c : Conf} {i j : Nat} {f : Bool} {fs : FS} {x : Inst} {w : World} {es : List Ev} {p q l : Path} {e : Ev}

@[simp] theorem upd_same (fs : FS) (p : Path) (e : Option Entry) : upd fs p e p = e := by simp [upd]
theorem upd_ne {fs : FS} {p q : Path} {e : Option Entry} (h : q ≠ p) : upd fs p e q = fs q := by simp [upd, h]

theorem run_append (es es' : List Ev) : run cfg w (es ++ es') = run cfg (run cfg w es) es' := List.foldl_append

/-- What a call of the main thread can do to the entry at `q`. -/
theorem main_fs (c : Conf) (i : Nat) (f : Bool) (fs : FS) (x : Inst) (q : Path) :
    (main c i f fs x).1 q = fs q ∨ c.rpc = some q ∨ c.link = some q ∨
      (fs q = none ∧ (main c i f fs x).1 q = some .dir ∧ ∃ l, c.link = some l ∧ q <+: l) := by
  by_cases h1 : c.rpc = some q
  · exact .inr (.inl h1)
  by_cases h2 : c.link = some q
  · exact .inr (.inr (.inl h2))
  have k1 : ∀ p, c.rpc = some p → q ≠ p := by rintro p hp rfl; exact h1 hp
  have k2 : ∀ p, c.link = some p → q ≠ p := by rintro p hp rfl; exact h2 hp
  unfold main
  simp only
  split
  case h_1 p _ hr =>
    split <;> try exact .inl rfl
    split
    · exact .inl rfl
    · exact .inl (upd_ne (k1 _ hr))
  case h_2 => exact .inl rfl
  case h_3 p _ hr =>
    split
    · exact .inl rfl
    · exact .inl (upd_ne (k1 _ hr))
  case h_4 => exact .inl rfl
  case h_5 p _ hr =>
    split <;> try exact .inl rfl
    · split
      · exact .inl rfl
      · exact .inl (upd_ne (k1 _ hr))
    · split <;> exact .inl rfl
  case h_6 k l _ hl =>
    split
    · exact .inl rfl
    · split
      · rename_i hn
        split
        · exact .inl rfl
        · by_cases hq : q = l.take (k + 1)
          · subst hq
            exact .inr (.inr (.inr ⟨hn, by simp, l, hl, List.take_prefix _ _⟩))
          · exact .inl (upd_ne hq)
      · exact .inl rfl
      · exact .inl rfl
  case h_7 =>
    split
    · exact .inl rfl
    · split <;> exact .inl rfl
  case h_8 l _ hl =>
    split <;> try exact .inl rfl
    split
    · exact .inl rfl
    · exact .inl (upd_ne (k2 _ hl))
  case h_9 l _ hl =>
    split
    · exact .inl rfl
    · exact .inl (upd_ne (k2 _ hl))
  case h_10 => split <;> exact .inl rfl
  case h_11 =>
    split
    · split <;> exact .inl rfl
    · exact .inl rfl
  case h_12 l _ hl =>
    split <;> try exact .inl rfl
    split
    · exact .inl rfl
    · exact .inl (upd_ne (k2 _ hl))
  case h_13 => exact .inl rfl

theorem handler_fs (c : Conf) (f : Bool) (fs : FS) (x : Inst) (q : Path) :
    (handler c f fs x).1 q = fs q ∨ (c.link = some q ∧ (handler c f fs x).1 q = none) := by
  unfold handler
  simp only
  split
  · exact .inl rfl
  · split
    · split <;> exact .inl rfl
    · split
      · split <;> exact .inl rfl
      · exact .inl rfl
    · rename_i l _ hl
      split <;> try exact .inl rfl
      split
      · exact .inl rfl
      · by_cases hq : q = l
        · subst hq; exact .inr ⟨hl, by simp⟩
        · exact .inl (upd_ne hq)
    · exact .inl rfl

/-- A backend changes nothing but its socket, its link, and missing directories above the link, which it makes. -/
theorem C75_frame (q : Path) (hq : ∀ i, (cfg i).rpc ≠ some q ∧ (cfg i).link ≠ some q) (w : World) (es : List Ev) (hu : Untouched es q) :
    (run cfg w es).fs q = w.fs q ∨
      (w.fs q = none ∧ (run cfg w es).fs q = some .dir ∧ ∃ i l, (cfg i).link = some l ∧ q <+: l) := by
  induction es generalizing w with
  | nil => exact .inl rfl
  | cons e es ih =>
    have ih := ih (step cfg w e) (fun e' h => hu e' (List.mem_cons_of_mem _ h))
    have hstep : (step cfg w e).fs q = w.fs q ∨
        (w.fs q = none ∧ (step cfg w e).fs q = some .dir ∧ ∃ i l, (cfg i).link = some l ∧ q <+: l) := by
      cases e with
      | main i f =>
        rcases main_fs (cfg i) i f w.fs (w.inst i) q with h | h | h | ⟨h1, h2, l, h3⟩
        · exact .inl h
        · exact absurd h (hq i).1
        · exact absurd h (hq i).2
        · exact .inr ⟨h1, h2, i, l, h3⟩
      | handler i f =>
        rcases handler_fs (cfg i) f w.fs (w.inst i) q with h | ⟨h, _⟩
        · exact .inl h
        · exact absurd h (hq i).2
      | kill i => exact .inl rfl
      | user p e' =>
        refine .inl (upd_ne ?_)
        rintro rfl
        exact hu e' (by simp)
    show (run cfg (step cfg w e) es).fs q = w.fs q ∨ _
    rcases hstep with h | ⟨h1, h2, h3⟩
    · rw [h] at ih; exact ih
    · right
      refine ⟨h1, ?_, h3⟩
      rcases ih with h | ⟨h, _⟩
      · exact h.trans h2
      · rw [h2] at h; cases h

/-- Acts of others leave a path alone. -/
theorem others (ha : Alone cfg i p) (hu : ∀ e', e ≠ .user p e') (hm : ∀ f, e ≠ .main i f) (hh : ∀ f, e ≠ .handler i f) (hk : e ≠ .kill i) :
    (step cfg w e).fs p = w.fs p ∧ (step cfg w e).inst i = w.inst i := by
  cases e with
  | main j f =>
    have hj : j ≠ i := by rintro rfl; exact hm f rfl
    refine ⟨?_, by simp [step, World.set, Ne.symm hj]⟩
    rcases main_fs (cfg j) j f w.fs (w.inst j) p with h | h | h | ⟨h1, h2, l, h3, h4⟩
    · exact h
    · exact absurd h (ha j hj).1
    · exact absurd List.prefix_rfl ((ha j hj).2 p h)
    · exact absurd h4 ((ha j hj).2 l h3)
  | handler j f =>
    have hj : j ≠ i := by rintro rfl; exact hh f rfl
    refine ⟨?_, by simp [step, World.set, Ne.symm hj]⟩
    rcases handler_fs (cfg j) f w.fs (w.inst j) p with h | ⟨h, _⟩
    · exact h
    · exact absurd List.prefix_rfl ((ha j hj).2 p h)
  | kill j =>
    have hj : j ≠ i := by rintro rfl; exact hk rfl
    exact ⟨rfl, by simp [step, World.set, Ne.symm hj]⟩
  | user q e' =>
    refine ⟨upd_ne ?_, rfl⟩
    rintro rfl; exact hu e' rfl

/-- An invariant of one backend and one path that others leave alone. -/
theorem induct (I : Option Entry → Inst → Prop) (ha : Alone cfg i p) (hu : Untouched es p)
    (hmain : ∀ fs x f, Ev.main i f ∈ es → I (fs p) x → I ((main (cfg i) i f fs x).1 p) (main (cfg i) i f fs x).2)
    (hhand : ∀ fs x f, Ev.handler i f ∈ es → I (fs p) x → I ((handler (cfg i) f fs x).1 p) (handler (cfg i) f fs x).2)
    (hkill : ∀ e x, I e x → I e { x with pc := .failed }) (h0 : I (w.fs p) (w.inst i)) :
    I ((run cfg w es).fs p) ((run cfg w es).inst i) := by
  induction es generalizing w with
  | nil => exact h0
  | cons e es ih =>
    refine ih (w := step cfg w e) (fun e' h => hu e' (List.mem_cons_of_mem _ h)) (fun fs x f h => hmain fs x f (List.mem_cons_of_mem _ h))
      (fun fs x f h => hhand fs x f (List.mem_cons_of_mem _ h)) ?_
    by_cases h1 : ∃ f, e = .main i f
    · obtain ⟨f, rfl⟩ := h1
      have := hmain w.fs (w.inst i) f (by simp) h0
      simpa [step, World.set] using this
    by_cases h2 : ∃ f, e = .handler i f
    · obtain ⟨f, rfl⟩ := h2
      have := hhand w.fs (w.inst i) f (by simp) h0
      simpa [step, World.set] using this
    by_cases h3 : e = .kill i
    · subst h3
      have := hkill _ _ h0
      simpa [step, World.set] using this
    · have := others (w := w) (e := e) ha (fun e' he => hu e' (by simp [he])) (fun f he => h1 ⟨f, he⟩) (fun f he => h2 ⟨f, he⟩) h3
      rw [this.1, this.2]; exact h0

theorem main_linked (hl : c.link = some l) (h : (main c i f fs x).2.pc = .serving true) :
    (main c i f fs x).1 l = some (.link c.dev) := by
  obtain ⟨pc, hand, m, sv⟩ := x
  obtain ⟨rpc, link, dev⟩ := c
  subst hl
  cases pc
  case symlink =>
    simp only [main] at h ⊢
    split at h
    · simp at h
    · rename_i hn; rw [if_neg hn]; simp
  all_goals exfalso; revert h; cases rpc <;> grind [main, upd, afterRpc]

theorem handler_pc : (handler c f fs x).2.pc = x.pc := by
  unfold handler
  simp only
  repeat' split
  all_goals rfl

theorem handler_mask : (handler c f fs x).2.mask = x.mask ∧ (handler c f fs x).2.saved = x.saved := by
  unfold handler
  simp only
  repeat' split
  all_goals exact ⟨rfl, rfl⟩

theorem main_hand : (main c i f fs x).2.hand = x.hand := by
  unfold main
  simp only
  repeat' split
  all_goals rfl

theorem handler_early (hl : c.link = some l) (h : (handler c f fs x).2.hand ≠ .done) : (handler c f fs x).1 l = fs l ∧ x.hand ≠ .done := by
  obtain ⟨pc, hand, m, sv⟩ := x
  unfold handler at h ⊢
  simp only [hl] at h ⊢
  split
  · rename_i ha; rw [if_pos ha] at h; exact ⟨rfl, h⟩
  · rename_i ha
    rw [if_neg ha] at h
    cases hand
    case idle => exact ⟨by simp only; split <;> rfl, by simp⟩
    case look => exact ⟨by simp only; (repeat' split) <;> rfl, by simp⟩
    case unlink => exfalso; revert h; simp only; (repeat' split) <;> simp
    case done => exact absurd rfl h

/-- While a backend runs, its link, once made, leads to its device, until its Ctrl-C handler is through. -/
theorem C75_link (ha : Alone cfg i l) (hl : (cfg i).link = some l) (hu : Untouched es l) (fs0 : FS) (mask : Nat → Nat)
    (hp : ((run cfg (.init cfg fs0 mask) es).inst i).pc = .serving true) (hh : ((run cfg (.init cfg fs0 mask) es).inst i).hand ≠ .done) :
    (run cfg (.init cfg fs0 mask) es).fs l = some (.link (cfg i).dev) := by
  refine induct (fun e x => x.pc = .serving true → x.hand ≠ .done → e = some (.link (cfg i).dev)) ha hu ?_ ?_ ?_ ?_ hp hh
  · intro fs x f _ h h1 h2
    exact main_linked hl h1
  · intro fs x f _ h h1 h2
    rw [handler_pc] at h1
    obtain ⟨e1, e2⟩ := handler_early hl h2
    rw [e1]; exact h h1 e2
  · rintro e x _ h; cases h
  · intro h
    simp only [World.init, Conf.start, afterRpc, hl] at h
    split at h <;> simp at h

/-- What the making of a link relies on. -/
def Making (l : Path) (fs : FS) (x : Inst) : Prop :=
  (∀ q, q <+: l → q ≠ l → fs q = none ∨ fs q = some .dir) ∧
  match x.pc with
  | .serving false => False
  | .unlink => ∃ e, fs l = some e ∧ e ≠ .dir
  | .symlink => fs l = none
  | .rmSock | .umask | .bind | .restore _ | .chmod | .mkdir _ | .look => fs l ≠ some .dir
  | _ => True

theorem main_making (hl : c.link = some l) (hr : ∀ q, q <+: l → c.rpc ≠ some q) (h : Making l fs x) :
    Making l (main c i false fs x).1 (main c i false fs x).2 := by
  obtain ⟨pc, hand, m, sv⟩ := x
  obtain ⟨rpc, link, dev⟩ := c
  simp only at hl hr
  subst hl
  obtain ⟨h1, h2⟩ := h
  have frame : ∀ q, q <+: l → q ≠ l → (main ⟨rpc, some l, dev⟩ i false fs ⟨pc, hand, m, sv⟩).1 q = none ∨
      (main ⟨rpc, some l, dev⟩ i false fs ⟨pc, hand, m, sv⟩).1 q = some .dir := by
    intro q hq hne
    rcases main_fs ⟨rpc, some l, dev⟩ i false fs ⟨pc, hand, m, sv⟩ q with h | h | h | ⟨_, h, _⟩
    · rw [h]; exact h1 q hq hne
    · exact absurd h (hr q hq)
    · exact absurd (Option.some.inj h).symm hne
    · exact .inr h
  refine ⟨frame, ?_⟩
  clear frame
  cases pc
  case mkdir k =>
    simp only [main]
    by_cases hk : l.length ≤ k + 1
    · rw [if_pos hk]; exact h2
    · rw [if_neg hk]
      have hne : l.take (k + 1) ≠ l := by
        intro e
        have := congrArg List.length e
        rw [List.length_take] at this; omega
      rcases h1 _ (List.take_prefix (k + 1) l) hne with h | h
      · simp only [h, Bool.false_eq_true, if_false]
        rw [upd_ne (Ne.symm hne)]; exact h2
      · simp only [h]; exact h2
  case rmSock =>
    cases rpc with
    | none => exact h2
    | some p =>
      have hp : l ≠ p := by rintro rfl; exact hr _ List.prefix_rfl rfl
      have h3 : upd fs p none l ≠ some .dir := by rw [upd_ne hp]; exact h2
      simp only [main]
      cases hf : fs p with
      | none => exact h2
      | some e => cases e <;> first | exact h3 | trivial
  case bind =>
    cases rpc with
    | none => exact h2
    | some p =>
      have hp : l ≠ p := by rintro rfl; exact hr _ List.prefix_rfl rfl
      simp only [main]
      by_cases hb : (false = true ∨ (fs p).isSome = true)
      · rw [if_pos hb]; exact h2
      · rw [if_neg hb]
        show upd fs p _ l ≠ some .dir
        rw [upd_ne hp]; exact h2
  case chmod =>
    cases rpc with
    | none => exact h2
    | some p =>
      have hp : l ≠ p := by rintro rfl; exact hr _ List.prefix_rfl rfl
      simp only [main, afterRpc]
      cases hf : fs p with
      | none => trivial
      | some e =>
        cases e
        case sock o m' =>
          show upd fs p _ l ≠ some .dir
          rw [upd_ne hp]; exact h2
        all_goals exact h2
  case restore ok => cases ok <;> first | exact h2 | trivial
  case look =>
    simp only [main, Bool.false_eq_true, if_false]
    cases hf : fs l with
    | none => simp [hf]
    | some e =>
      simp only [Option.isSome_some, if_true]
      exact ⟨e, hf, by rintro rfl; exact h2 hf⟩
  case unlink =>
    obtain ⟨e, he, hd⟩ := h2
    simp only [main, he]
    cases e <;> first | exact absurd rfl hd | exact upd_same _ _ _
  case symlink =>
    have h2 : fs l = none := h2
    simp [main, h2]
  case umask => exact h2
  case serving b => cases b <;> first | exact h2.elim | trivial
  case look2 =>
    simp only [main]
    cases hf : fs l with
    | none => trivial
    | some e => cases e <;> trivial
  case unlink2 =>
    simp only [main]
    cases hf : fs l with
    | none => trivial
    | some e => cases e <;> trivial
  case gone => trivial
  case failed => trivial

/-- The link is made: as long as no call of the backend fails, nobody else uses the link or the places above it but as
directories, and the link's own place is no directory, the backend does not go on without its link. -/
theorem C75_made (ha : Alone cfg i l) (hl : (cfg i).link = some l) (hr : ∀ q, q <+: l → (cfg i).rpc ≠ some q)
    (hq : ∀ j q, q <+: l → q ≠ l → (cfg j).rpc ≠ some q ∧ (cfg j).link ≠ some q) (hu : ∀ q, q <+: l → Untouched es q)
    (hf : Ev.main i true ∉ es) (hh : ∀ f, Ev.handler i f ∉ es) (fs0 : FS) (mask : Nat → Nat)
    (h0 : ∀ q, q <+: l → q ≠ l → fs0 q = none ∨ fs0 q = some .dir) (h1 : fs0 l ≠ some .dir) :
    ((run cfg (.init cfg fs0 mask) es).inst i).pc ≠ .serving false := by
  have : ∀ (es : List Ev) (w : World), (∀ q, q <+: l → Untouched es q) → Ev.main i true ∉ es → (∀ f, Ev.handler i f ∉ es) →
      Making l w.fs (w.inst i) → Making l (run cfg w es).fs ((run cfg w es).inst i) := by
    intro es
    induction es with
    | nil => exact fun _ _ _ _ h => h
    | cons e es ih =>
      intro w hu hf hh h
      refine ih (step cfg w e) (fun q hq e' hm => hu q hq e' (List.mem_cons_of_mem _ hm)) (fun hm => hf (List.mem_cons_of_mem _ hm))
        (fun f hm => hh f (List.mem_cons_of_mem _ hm)) ?_
      have others' : ∀ fs' : FS, (∀ q, q <+: l → fs' q = w.fs q ∨ (q ≠ l ∧ fs' q = some .dir)) → Making l fs' (w.inst i) := by
        intro fs' hfs
        have e : fs' l = w.fs l := by
          rcases hfs l List.prefix_rfl with h | ⟨h, _⟩
          · exact h
          · exact absurd rfl h
        refine ⟨fun q hq hne => ?_, ?_⟩
        · rcases hfs q hq with h' | ⟨_, h'⟩
          · rw [h']; exact h.1 q hq hne
          · exact .inr h'
        · rw [e]; exact h.2
      cases e with
      | main j f =>
        by_cases hj : i = j
        · subst hj
          cases f with
          | true => exact absurd (by simp) hf
          | false => simpa [step, World.set] using main_making hl hr h
        · simp only [step, World.set, if_neg hj]
          refine others' _ fun q hp => ?_
          rcases main_fs (cfg j) j f w.fs (w.inst j) q with g | g | g | ⟨_, g, l', h3, h4⟩
          · exact .inl g
          · by_cases e : q = l
            · subst e; exact absurd g (ha j (Ne.symm hj)).1
            · exact absurd g (hq j q hp e).1
          · by_cases e : q = l
            · subst e; exact absurd List.prefix_rfl ((ha j (Ne.symm hj)).2 _ g)
            · exact absurd g (hq j q hp e).2
          · refine .inr ⟨?_, g⟩
            rintro rfl
            exact (ha j (Ne.symm hj)).2 _ h3 h4
      | handler j f =>
        by_cases hj : i = j
        · subst hj; exact absurd (by simp) (hh f)
        · simp only [step, World.set, if_neg hj]
          refine others' _ fun q hp => ?_
          rcases handler_fs (cfg j) f w.fs (w.inst j) q with g | ⟨g, _⟩
          · exact .inl g
          · by_cases e : q = l
            · subst e; exact absurd List.prefix_rfl ((ha j (Ne.symm hj)).2 _ g)
            · exact absurd g (hq j q hp e).2
      | kill j =>
        by_cases hj : i = j
        · subst hj; simp only [step, World.set, if_true]; exact ⟨h.1, trivial⟩
        · simp only [step, World.set, if_neg hj]; exact h
      | user p e' =>
        refine others' _ fun q hp => .inl (upd_ne ?_)
        rintro rfl; exact hu q hp e' (by simp)
  have := this es (.init cfg fs0 mask) hu hf hh (by
    refine ⟨h0, ?_⟩
    simp only [World.init, Conf.start, afterRpc, hl]
    cases (cfg i).rpc <;> exact h1)
  intro e
  have h2 := this.2
  rw [e] at h2
  exact h2

/-- How many calls are left until the backend serves, at most. -/
def left (c : Conf) : Pc → Nat
  | .rmSock => (c.link.getD []).length + 9
  | .umask => (c.link.getD []).length + 8
  | .bind => (c.link.getD []).length + 7
  | .restore _ => (c.link.getD []).length + 6
  | .chmod => (c.link.getD []).length + 5
  | .mkdir k => (c.link.getD []).length - k + 4
  | .look => 3
  | .unlink => 2
  | .symlink => 1
  | _ => 0

/-- What coming to serve relies on: the socket's place is free when it is made. -/
def Up (c : Conf) (fs : FS) : Pc → Prop
  | .rmSock => ∃ p, c.rpc = some p ∧ fs p ≠ some .dir
  | .umask | .bind => ∃ p, c.rpc = some p ∧ fs p = none
  | .restore ok => ok = true ∧ ∃ p, c.rpc = some p ∧ fs p ≠ none
  | .chmod => ∃ p, c.rpc = some p ∧ fs p ≠ none
  | .mkdir _ | .look | .unlink | .symlink => c.link.isSome = true
  | .serving b => b = true → c.link.isSome = true
  | _ => False

theorem main_up (h : Up c fs x.pc) (hs : ∀ b, x.pc ≠ .serving b) :
    Up c (main c i false fs x).1 (main c i false fs x).2.pc ∧ left c (main c i false fs x).2.pc < left c x.pc := by
  obtain ⟨pc, hand, m, sv⟩ := x
  obtain ⟨rpc, link, dev⟩ := c
  cases pc
  case serving b => exact absurd rfl (hs b)
  case rmSock =>
    obtain ⟨p, hp, h⟩ := h
    simp only at hp; subst hp
    simp only [main]
    split
    · exact ⟨⟨p, rfl, by assumption⟩, by simp [left]⟩
    · contradiction
    · simp only [Bool.false_eq_true, if_false]
      exact ⟨⟨p, rfl, by simp⟩, by simp [left]⟩
  case umask => exact ⟨h, by simp [left, main]⟩
  case bind =>
    obtain ⟨p, hp, h⟩ := h
    simp only at hp; subst hp
    simp only [main, h]
    exact ⟨⟨rfl, p, rfl, by simp⟩, by simp [left]⟩
  case restore ok =>
    obtain ⟨rfl, h⟩ := h
    exact ⟨h, by simp [left, main]⟩
  case chmod =>
    obtain ⟨p, hp, h⟩ := h
    simp only at hp; subst hp
    have key : ∀ fs' : FS, Up ⟨some p, link, dev⟩ fs' (afterRpc ⟨some p, link, dev⟩) ∧
        left ⟨some p, link, dev⟩ (afterRpc ⟨some p, link, dev⟩) < left ⟨some p, link, dev⟩ .chmod := by
      intro fs'
      cases link <;> simp [afterRpc, Up, left]
    simp only [main, Bool.false_eq_true, if_false]
    split
    · contradiction
    · exact key _
    · exact key _
  case mkdir k =>
    cases link with
    | none => simp [Up] at h
    | some l =>
      simp only [main, Bool.false_eq_true, if_false]
      split
      · simp [Up, left]
      · split <;> simp [Up, left] <;> omega
  case look =>
    cases link with
    | none => simp [Up] at h
    | some l =>
      simp only [main, Bool.false_eq_true, if_false]
      split <;> simp [Up, left]
  case unlink =>
    cases link with
    | none => simp [Up] at h
    | some l =>
      simp only [main, Bool.false_eq_true, if_false]
      split <;> simp [Up, left]
  case symlink =>
    cases link with
    | none => simp [Up] at h
    | some l =>
      simp only [main]
      split <;> simp [Up, left]
  all_goals exact absurd h (by simp [Up])

theorem up_congr {fs' : FS} {pc : Pc} (h : Up c fs pc) (he : ∀ p, c.rpc = some p → fs' p = fs p) : Up c fs' pc := by
  cases pc
  case rmSock => obtain ⟨p, hp, h⟩ := h; exact ⟨p, hp, by rwa [he p hp]⟩
  case umask => obtain ⟨p, hp, h⟩ := h; exact ⟨p, hp, by rwa [he p hp]⟩
  case bind => obtain ⟨p, hp, h⟩ := h; exact ⟨p, hp, by rwa [he p hp]⟩
  case restore ok => obtain ⟨h0, p, hp, h⟩ := h; exact ⟨h0, p, hp, by rwa [he p hp]⟩
  case chmod => obtain ⟨p, hp, h⟩ := h; exact ⟨p, hp, by rwa [he p hp]⟩
  all_goals exact h

/-- A backend comes to serve: if the place of its socket is its own and no directory, no call of it fails and it is not killed, then
however the acts of others fall in between, after at most ten calls and one for each name of the link's path it serves. -/
theorem comes_to_serve (ha : ∀ p, (cfg i).rpc = some p → Alone cfg i p) (hu : ∀ p, (cfg i).rpc = some p → Untouched es p)
    (hf : Ev.main i true ∉ es) (hh : ∀ f, Ev.handler i f ∉ es) (hk : Ev.kill i ∉ es) (h : Up (cfg i) w.fs (w.inst i).pc)
    (hc : left (cfg i) (w.inst i).pc ≤ es.count (.main i false)) :
    ∃ es1 es2 b, es = es1 ++ es2 ∧ ((run cfg w es1).inst i).pc = .serving b ∧ (b = true → (cfg i).link.isSome = true) := by
  induction es generalizing w with
  | nil =>
    have h0 : left (cfg i) (w.inst i).pc = 0 := by simpa using hc
    refine ⟨[], [], ?_⟩
    simp only [run, List.foldl_nil, List.append_nil, true_and]
    revert h h0
    generalize (w.inst i).pc = pc
    intro h h0
    cases pc <;> simp [left, Up] at h h0 ⊢
    exact h
  | cons e es ih =>
    by_cases hs : ∃ b, (w.inst i).pc = .serving b
    · obtain ⟨b, hb⟩ := hs
      refine ⟨[], e :: es, b, rfl, hb, ?_⟩
      rw [hb] at h; exact h
    · have hs : ∀ b, (w.inst i).pc ≠ .serving b := fun b hb => hs ⟨b, hb⟩
      have next : Up (cfg i) (step cfg w e).fs ((step cfg w e).inst i).pc ∧
          left (cfg i) ((step cfg w e).inst i).pc ≤ es.count (.main i false) := by
        by_cases he : e = .main i false
        · subst he
          have := main_up (i := i) h hs
          rw [List.count_cons_self] at hc
          refine ⟨by simpa [step, World.set] using this.1, ?_⟩
          have := this.2
          simp only [step, World.set, if_true]
          omega
        · rw [List.count_cons_of_ne he] at hc
          have hi : (step cfg w e).inst i = w.inst i := by
            cases e with
            | main j f =>
              have hj : i ≠ j := by rintro rfl; cases f <;> simp_all
              simp [step, World.set, hj]
            | handler j f =>
              have hj : i ≠ j := by rintro rfl; exact hh f (by simp)
              simp [step, World.set, hj]
            | kill j =>
              have hj : i ≠ j := by rintro rfl; exact hk (by simp)
              simp [step, World.set, hj]
            | user p e' => rfl
          rw [hi]
          refine ⟨up_congr h fun p hp => ?_, hc⟩
          refine (others (ha p hp) (fun e' h' => hu p hp e' (by simp [h'])) (fun f h' => ?_) (fun f h' => hh f (by simp [h'])) (fun h' => hk (by simp [h']))).1
          cases f
          · exact he h'
          · exact hf (by simp [h'])
      obtain ⟨es1, es2, b, h1, h2, h3⟩ := ih (w := step cfg w e) (fun p hp e' h' => hu p hp e' (List.mem_cons_of_mem _ h'))
        (fun h' => hf (List.mem_cons_of_mem _ h')) (fun f h' => hh f (List.mem_cons_of_mem _ h')) (fun h' => hk (List.mem_cons_of_mem _ h'))
        next.1 next.2
      exact ⟨e :: es1, es2, b, by rw [h1]; rfl, h2, h3⟩

/-- How many of the places above the link are directories by now. -/
def Above (l : Path) (fs : FS) (x : Inst) : Prop :=
  match x.pc with
  | .mkdir k => ∀ j, 1 ≤ j → j ≤ k → j < l.length → fs (l.take j) = some .dir
  | .look | .unlink | .symlink | .serving true => ∀ j, 1 ≤ j → j < l.length → fs (l.take j) = some .dir
  | _ => True

theorem above_mono {x : Inst} (h : Above l fs x) {fs' : FS} (hm : ∀ j, 1 ≤ j → j < l.length → fs (l.take j) = some .dir → fs' (l.take j) = some .dir) :
    Above l fs' x := by
  unfold Above at h ⊢
  split <;> simp_all

theorem main_above {c : Conf} {f : Bool} {x : Inst} (hl : c.link = some l) (h : Above l fs x)
    (hm : ∀ j, 1 ≤ j → j < l.length → fs (l.take j) = some .dir → (main c i f fs x).1 (l.take j) = some .dir) :
    Above l (main c i f fs x).1 (main c i f fs x).2 := by
  obtain ⟨pc, hand, m, sv⟩ := x
  obtain ⟨rpc, link, dev⟩ := c
  simp only at hl
  subst hl
  have h' := above_mono h hm
  revert h'
  generalize hy : main ⟨rpc, some l, dev⟩ i f fs ⟨pc, hand, m, sv⟩ = y
  cases pc
  case mkdir k =>
    intro h'
    simp only [main] at hy
    split at hy
    · subst hy
      intro j h1 h2
      exact h' j h1 (by omega) h2
    · have step : ∀ g : FS, (∀ j, 1 ≤ j → j ≤ k → j < l.length → g (l.take j) = some .dir) → g (l.take (k + 1)) = some .dir →
          Above l g ⟨.mkdir (k + 1), hand, m, sv⟩ := by
        intro g h1 h2 j h3 h4 h5
        by_cases e : j = k + 1
        · subst e; exact h2
        · exact h1 j h3 (by omega) h5
      split at hy
      · split at hy
        · subst hy; trivial
        · subst hy; exact step _ h' (upd_same _ _ _)
      · subst hy; exact step _ h' (by assumption)
      · subst hy; trivial
  case serving b => intro h'; simp only [main] at hy; split at hy <;> subst hy <;> simp [Above]
  case look => intro h'; simp only [main] at hy; (repeat' split at hy) <;> subst hy <;> first | exact h' | trivial
  case unlink => intro h'; simp only [main] at hy; (repeat' split at hy) <;> subst hy <;> first | exact h' | trivial
  case symlink => intro h'; simp only [main] at hy; (repeat' split at hy) <;> subst hy <;> first | exact h' | trivial
  case chmod =>
    intro _
    have : Above l y.1 ⟨.mkdir 0, hand, m, sv⟩ := fun j h1 h2 _ => absurd h2 (by omega)
    cases rpc <;> simp only [main, afterRpc] at hy
    · subst hy; trivial
    · (repeat' split at hy) <;> subst hy <;> first | exact this | trivial
  case restore ok => intro _; cases rpc <;> simp only [main] at hy <;> subst hy <;> cases ok <;> trivial
  all_goals intro _; cases rpc <;> simp only [main] at hy <;> (repeat' split at hy) <;> subst hy <;> trivial

/-- The path of the link can be followed: if nobody uses the places above the link but as directories, all of them are directories once
the link is made, whatever was there before. -/
theorem C75_parents (hl : (cfg i).link = some l) (hq : ∀ j q, q <+: l → q ≠ l → (cfg j).rpc ≠ some q ∧ (cfg j).link ≠ some q)
    (hu : ∀ q, q <+: l → q ≠ l → Untouched es q) (fs0 : FS) (mask : Nat → Nat)
    (hp : ((run cfg (.init cfg fs0 mask) es).inst i).pc = .serving true) (q : Path) (h1 : q <+: l) (h2 : q ≠ []) (h3 : q ≠ l) :
    (run cfg (.init cfg fs0 mask) es).fs q = some .dir := by
  have key : ∀ (es : List Ev) (w : World), (∀ q, q <+: l → q ≠ l → Untouched es q) → Above l w.fs (w.inst i) →
      Above l (run cfg w es).fs ((run cfg w es).inst i) := by
    intro es
    induction es with
    | nil => exact fun _ _ h => h
    | cons e es ih =>
      intro w hu h
      refine ih (step cfg w e) (fun q hq hne e' hm => hu q hq hne e' (List.mem_cons_of_mem _ hm)) ?_
      have pre : ∀ j, j < l.length → l.take j ≠ l := by
        intro j hj e
        have := congrArg List.length e
        rw [List.length_take] at this; omega
      have stays : ∀ k f j, j < l.length → w.fs (l.take j) = some .dir → (main (cfg k) k f w.fs (w.inst k)).1 (l.take j) = some .dir := by
        intro k f j hj hd
        have hqq := hq k _ (List.take_prefix j l) (pre j hj)
        rcases main_fs (cfg k) k f w.fs (w.inst k) (l.take j) with g | g | g | ⟨_, g, _⟩
        · rw [g]; exact hd
        · exact absurd g hqq.1
        · exact absurd g hqq.2
        · exact g
      cases e with
      | main j f =>
        by_cases hj : i = j
        · subst hj
          simp only [step, World.set, if_true]
          exact main_above hl h fun j _ hj hd => stays i f j hj hd
        · simp only [step, World.set, if_neg hj]
          exact above_mono h fun k _ hk hd => stays j f k hk hd
      | handler j f =>
        have hs : ∀ k, k < l.length → w.fs (l.take k) = some .dir → (handler (cfg j) f w.fs (w.inst j)).1 (l.take k) = some .dir := by
          intro k hk hd
          rcases handler_fs (cfg j) f w.fs (w.inst j) (l.take k) with g | ⟨g, _⟩
          · rw [g]; exact hd
          · exact absurd g (hq j _ (List.take_prefix k l) (pre k hk)).2
        have h' := above_mono h (fs' := (handler (cfg j) f w.fs (w.inst j)).1) fun k _ hk hd => hs k hk hd
        by_cases hj : i = j
        · subst hj
          simp only [step, World.set, if_true]
          unfold Above at h' ⊢
          rw [handler_pc]; exact h'
        · simp only [step, World.set, if_neg hj]; exact h'
      | kill j =>
        by_cases hj : i = j
        · subst hj; simp only [step, World.set, if_true]; trivial
        · simp only [step, World.set, if_neg hj]; exact h
      | user p e' =>
        refine above_mono h fun k _ hk hd => ?_
        show upd w.fs p e' (l.take k) = _
        rw [upd_ne]
        · exact hd
        · rintro rfl
          exact hu _ (List.take_prefix k l) (pre k hk) e' (by simp)
  have := key es (.init cfg fs0 mask) hu (by
    simp only [World.init, Conf.start, afterRpc, hl]
    cases (cfg i).rpc
    · exact fun j h1 h2 _ => absurd h2 (by omega)
    · trivial)
  unfold Above at this
  rw [hp] at this
  have hlen : q.length < l.length := by
    rcases Nat.lt_or_ge q.length l.length with h | h
    · exact h
    · exact absurd (h1.eq_of_length (Nat.le_antisymm h1.length_le h)) h3
  have e : q = l.take q.length := List.prefix_iff_eq_take.mp h1
  rw [e]
  exact this _ (List.length_pos_iff.mpr h2) hlen

/-- **A backend comes to serve, with its link if it has one.** The place of its socket is its own and no directory, the link's and the
places above it are as in `C75_made`, no call of it fails, and it is not killed: then however the acts of others fall in between, once it
has made nine calls and one for each name of the link's path it has come to serve, with a link exactly if one was asked for. -/
theorem C75_serves (fs0 : FS) (mask : Nat → Nat) (ha : ∀ p, (cfg i).rpc = some p → Alone cfg i p ∧ Untouched es p ∧ fs0 p ≠ some .dir)
    (hl : ∀ l, (cfg i).link = some l → Alone cfg i l ∧ (∀ q, q <+: l → (cfg i).rpc ≠ some q) ∧
      (∀ j q, q <+: l → q ≠ l → (cfg j).rpc ≠ some q ∧ (cfg j).link ≠ some q) ∧ (∀ q, q <+: l → Untouched es q) ∧
      (∀ q, q <+: l → q ≠ l → fs0 q = none ∨ fs0 q = some .dir) ∧ fs0 l ≠ some .dir)
    (hf : Ev.main i true ∉ es) (hh : ∀ f, Ev.handler i f ∉ es) (hk : Ev.kill i ∉ es)
    (hc : ((cfg i).link.getD []).length + 9 ≤ es.count (.main i false)) :
    ∃ es1 es2, es = es1 ++ es2 ∧ ((run cfg (.init cfg fs0 mask) es1).inst i).pc = .serving (cfg i).link.isSome := by
  have hup : Up (cfg i) fs0 ((cfg i).start (mask i)).pc ∧ left (cfg i) ((cfg i).start (mask i)).pc ≤ ((cfg i).link.getD []).length + 9 := by
    have ha := fun p hp => (ha p hp).2.2
    revert ha
    generalize cfg i = c
    intro ha
    obtain ⟨rpc, link, dev⟩ := c
    cases rpc with
    | some p => exact ⟨⟨p, rfl, ha p rfl⟩, by simp [Conf.start, left]⟩
    | none => cases link <;> simp [Conf.start, afterRpc, Up, left]
  obtain ⟨es1, es2, b, h1, h2, h3⟩ := comes_to_serve (w := .init cfg fs0 mask) (fun p hp => (ha p hp).1) (fun p hp => (ha p hp).2.1) hf hh hk hup.1
    (Nat.le_trans hup.2 hc)
  refine ⟨es1, es2, h1, ?_⟩
  rw [h2]
  cases hlk : (cfg i).link with
  | none =>
    rw [hlk] at h3
    cases b
    · rfl
    · simp at h3
  | some l =>
    cases b
    · exfalso
      obtain ⟨a1, a2, a3, a4, a5, a6⟩ := hl l hlk
      have sub : ∀ e, e ∈ es1 → e ∈ es := fun e he => by rw [h1]; exact List.mem_append_left _ he
      exact C75_made a1 hlk a2 a3 (fun q hq e he => a4 q hq e (sub _ he)) (fun he => hf (sub _ he)) (fun f he => hh f (sub _ he)) fs0 mask a5 a6 h2
    · rfl

/-- Spelled out for the end of a backend: how the main thread gets to `gone`. -/
theorem main_gone (hl : c.link = some l) (h : (main c i false fs x).2.pc = .gone) (hx : x.pc = .gone → ∀ t, fs l ≠ some (.link t)) :
    ∀ t, (main c i false fs x).1 l ≠ some (.link t) := by
  obtain ⟨pc, hand, m, sv⟩ := x
  obtain ⟨rpc, link, dev⟩ := c
  subst hl
  cases pc
  case gone => exact hx rfl
  case look2 => simp only [main] at h ⊢; split at h <;> simp_all
  case unlink2 => simp only [main] at h ⊢; split at h <;> simp_all
  all_goals exfalso; revert h; cases rpc <;> grind [main, upd, afterRpc]

/-- A backend that ends by itself, no call of it failing, leaves no link behind. -/
theorem C75_removed (ha : Alone cfg i l) (hl : (cfg i).link = some l) (hu : Untouched es l) (hf : Ev.main i true ∉ es) (fs0 : FS)
    (mask : Nat → Nat) (hp : ((run cfg (.init cfg fs0 mask) es).inst i).pc = .gone) (t : Nat) :
    (run cfg (.init cfg fs0 mask) es).fs l ≠ some (.link t) := by
  refine induct (fun e x => x.pc = .gone → ∀ t, e ≠ some (.link t)) ha hu ?_ ?_ ?_ ?_ hp t
  · intro fs x f hm h h1
    cases f with
    | true => exact absurd hm hf
    | false => exact main_gone hl h1 h
  · intro fs x f _ h h1 t
    rw [handler_pc] at h1
    rcases handler_fs (cfg i) f fs x l with h2 | ⟨_, h2⟩
    · rw [h2]; exact h h1 t
    · rw [h2]; simp
  · rintro e x _ h; cases h
  · intro h
    simp only [World.init, Conf.start, afterRpc, hl] at h
    split at h <;> simp at h

/-- A backend that is ending, or whose handler has not looked yet, leaves something that is no link where it is. -/
theorem C75_keeps (ha : Alone cfg i l) (hl : (cfg i).link = some l) (hr : (cfg i).rpc ≠ some l) (hu : Untouched es l) (w : World) (e : Entry)
    (he : w.fs l = some e) (hne : ∀ t, e ≠ .link t)
    (hp : (∃ b, (w.inst i).pc = .serving b) ∨ (w.inst i).pc = .look2) (hh : (w.inst i).hand = .idle ∨ (w.inst i).hand = .look ∨ (w.inst i).hand = .done) :
    (run cfg w es).fs l = some e := by
  have := induct (cfg := cfg) (i := i) (p := l) (w := w) (es := es) (fun e' x => e' = some e ∧ ((∃ b, x.pc = .serving b) ∨ x.pc = .look2 ∨ x.pc = .gone ∨ x.pc = .failed) ∧
    (x.hand = .idle ∨ x.hand = .look ∨ x.hand = .done)) ha hu ?_ ?_ ?_ ?_
  · exact this.1
  · rintro fs ⟨pc, hand, m, sv⟩ f _ ⟨h1, h2, h3⟩
    unfold main
    simp only [hl] at h2 h3 ⊢
    rcases h2 with ⟨b, rfl⟩ | rfl | rfl | rfl
    · simp only; split <;> exact ⟨h1, by simp, h3⟩
    · simp only [h1]
      cases e with
      | link t => exact absurd rfl (hne t)
      | _ => exact ⟨h1, by simp, h3⟩
    · exact ⟨h1, by simp, h3⟩
    · exact ⟨h1, by simp, h3⟩
  · rintro fs ⟨pc, hand, m, sv⟩ f _ ⟨h1, h2, h3⟩
    unfold handler
    simp only [hl] at h2 h3 ⊢
    split
    · exact ⟨h1, h2, h3⟩
    · rcases h3 with rfl | rfl | rfl
      · simp only
        split <;> exact ⟨h1, h2, by simp⟩
      · simp only [h1]
        cases e with
        | link t => exact absurd rfl (hne t)
        | _ => exact ⟨h1, h2, by simp⟩
      · exact ⟨h1, h2, by simp⟩
  · rintro e' x ⟨h1, h2, h3⟩
    exact ⟨h1, by simp, h3⟩
  · exact ⟨he, by rcases hp with h | h <;> simp [h], hh⟩

/-! ### The socket -/

theorem tight_newMode : newMode 0o117 = 0o660 := by decide

/-- What a call of the main thread can make of a socket. -/
theorem main_sock {o m : Nat} (h : (main c i f fs x).1 p = some (.sock o m)) :
    fs p = some (.sock o m) ∨ (x.pc = .bind ∧ m = newMode x.mask) ∨ m = 0o660 := by
  obtain ⟨pc, hand, mk, sv⟩ := x
  have key : ∀ (fs' : FS) (q : Path) (e : Option Entry), upd fs' q e p = some (.sock o m) → e = some (.sock o m) ∨ fs' p = some (.sock o m) := by
    intro fs' q e h
    by_cases hq : p = q
    · subst hq; left; simpa using h
    · right; rwa [upd_ne hq] at h
  unfold main at h
  simp only at h
  split at h
  case h_1 =>
    split at h <;> try exact .inl h
    split at h
    · exact .inl h
    · rcases key _ _ _ h with h | h
      · cases h
      · exact .inl h
  case h_2 => exact .inl h
  case h_3 =>
    split at h
    · exact .inl h
    · rcases key _ _ _ h with h | h
      · cases h; exact .inr (.inl ⟨rfl, rfl⟩)
      · exact .inl h
  case h_4 => exact .inl h
  case h_5 =>
    split at h
    · exact .inl h
    · split at h
      · exact .inl h
      · rcases key _ _ _ h with h | h
        · cases h; exact .inr (.inr rfl)
        · exact .inl h
    · split at h <;> exact .inl h
  case h_6 =>
    split at h
    · exact .inl h
    · split at h
      · split at h
        · exact .inl h
        · rcases key _ _ _ h with h | h
          · cases h
          · exact .inl h
      · exact .inl h
      · exact .inl h
  case h_7 => (repeat' split at h) <;> exact .inl h
  case h_8 =>
    split at h <;> try exact .inl h
    split at h
    · exact .inl h
    · rcases key _ _ _ h with h | h
      · cases h
      · exact .inl h
  case h_9 =>
    split at h
    · exact .inl h
    · rcases key _ _ _ h with h | h
      · cases h
      · exact .inl h
  case h_10 => (repeat' split at h) <;> exact .inl h
  case h_11 => (repeat' split at h) <;> exact .inl h
  case h_12 =>
    split at h <;> try exact .inl h
    split at h
    · exact .inl h
    · rcases key _ _ _ h with h | h
      · cases h
      · exact .inl h
  case h_13 => exact .inl h

/-- The masks of a backend started with mask `m0`. -/
def Masks (m0 : Nat) (x : Inst) : Prop := match x.pc with
  | .bind => x.mask = 0o117 ∧ x.saved = m0
  | .restore _ => x.saved = m0
  | .failed => True
  | _ => x.mask = m0

theorem main_masks {m0 : Nat} (h : Masks m0 x) : Masks m0 (main c i f fs x).2 := by
  obtain ⟨pc, hand, mk, sv⟩ := x
  obtain ⟨rpc, link, dev⟩ := c
  cases pc <;> cases rpc <;> cases link <;> grind [main, Masks, afterRpc]

theorem masks_run (fs0 : FS) (mask : Nat → Nat) (es : List Ev) (i : Nat) : Masks (mask i) ((run cfg (.init cfg fs0 mask) es).inst i) := by
  have : ∀ (es : List Ev) (w : World), Masks (mask i) (w.inst i) → Masks (mask i) ((run cfg w es).inst i) := by
    intro es
    induction es with
    | nil => exact fun _ h => h
    | cons e es ih =>
      intro w h
      refine ih (step cfg w e) ?_
      cases e with
      | main j f =>
        by_cases hj : i = j
        · subst hj; simpa [step, World.set] using main_masks h
        · simpa [step, World.set, hj] using h
      | handler j f =>
        by_cases hj : i = j
        · subst hj
          have e1 := handler_pc (c := cfg i) (f := f) (fs := w.fs) (x := w.inst i)
          have e2 := handler_mask (c := cfg i) (f := f) (fs := w.fs) (x := w.inst i)
          have : Masks (mask i) (handler (cfg i) f w.fs (w.inst i)).2 := by
            unfold Masks at h ⊢
            rw [e1, e2.1, e2.2]; exact h
          simpa [step, World.set] using this
        · simpa [step, World.set, hj] using h
      | kill j =>
        by_cases hj : i = j
        · subst hj; simp [step, World.set, Masks]
        · simpa [step, World.set, hj] using h
      | user p e' => exact h
  refine this es _ ?_
  simp only [World.init, Conf.start, afterRpc, Masks]
  cases (cfg i).rpc <;> cases (cfg i).link <;> simp

/-- **C75** A backend that has ended, or was killed, changes nothing any more: neither its main thread nor its Ctrl-C handler. -/
theorem C75_ended (w : World) (hx : (w.inst i).pc = .gone ∨ (w.inst i).pc = .failed) (he : ∀ e ∈ es, (∃ f, e = .main i f) ∨ ∃ f, e = .handler i f) :
    (run cfg w es).fs = w.fs := by
  induction es generalizing w with
  | nil => rfl
  | cons e es ih =>
    have hd : (step cfg w e).fs = w.fs ∧ ((step cfg w e).inst i) = w.inst i := by
      rcases he e List.mem_cons_self with ⟨f, rfl⟩ | ⟨f, rfl⟩
      · have : main (cfg i) i f w.fs (w.inst i) = (w.fs, w.inst i) := by
          unfold main
          rcases hx with hx | hx <;> rw [hx]
        simp [step, this, World.set, upd]
      · have : handler (cfg i) f w.fs (w.inst i) = (w.fs, w.inst i) := by
          unfold handler Inst.alive
          rcases hx with hx | hx <;> simp [hx]
        simp [step, this, World.set, upd]
    have := ih (step cfg w e) (by rw [hd.2]; exact hx) fun e' h => he e' (List.mem_cons_of_mem _ h)
    rw [← hd.1]
    exact this

/-- No socket a backend makes is ever open to others or executable, at no moment between making it and setting its mode. -/
theorem C75_socket_tight (fs0 : FS) (mask : Nat → Nat) (h0 : ∀ p o m, fs0 p = some (.sock o m) → Tight m)
    (hu : ∀ p o m, Ev.user p (some (.sock o m)) ∈ es → Tight m) (p : Path) (o m : Nat)
    (h : (run cfg (.init cfg fs0 mask) es).fs p = some (.sock o m)) : Tight m := by
  induction es using List.reverseRecOn generalizing p o m with
  | nil => exact h0 p o m h
  | append_singleton es e ih =>
    have ih := fun p o m => ih (fun p o m h => hu p o m (List.mem_append_left _ h)) p o m
    rw [run_append] at h
    have hm := masks_run (cfg := cfg) fs0 mask es
    generalize run cfg (.init cfg fs0 mask) es = w at h ih hm
    cases e with
    | main j f =>
      rcases main_sock (show (main (cfg j) j f w.fs (w.inst j)).1 p = _ from h) with h | ⟨h1, h2⟩ | h
      · exact ih p o m h
      · have := hm j
        simp only [Masks, h1] at this
        rw [h2, this.1, tight_newMode]; exact rfl
      · rw [h]; exact rfl
    | handler j f =>
      rcases handler_fs (cfg j) f w.fs (w.inst j) p with h1 | ⟨_, h1⟩
      · exact ih p o m (h1 ▸ h)
      · have h : (handler (cfg j) f w.fs (w.inst j)).1 p = some (.sock o m) := h
        rw [h1] at h; cases h
    | kill j => exact ih p o m h
    | user q e' =>
      by_cases hq : p = q
      · subst hq
        have h : upd w.fs p e' p = some (.sock o m) := h
        rw [upd_same] at h
        exact hu p o m (by rw [← h]; simp)
      · have h : upd w.fs q e' p = some (.sock o m) := h
        rw [upd_ne hq] at h
        exact ih p o m h

/-- The umask is changed only around making the socket: a running backend has the one it was started with. -/
theorem C75_umask (fs0 : FS) (mask : Nat → Nat) (hx : ((run cfg (.init cfg fs0 mask) es).inst i).running) :
    ((run cfg (.init cfg fs0 mask) es).inst i).mask = mask i := by
  have h := masks_run (cfg := cfg) fs0 mask es i
  generalize (run cfg (.init cfg fs0 mask) es).inst i = x at h hx
  unfold Inst.running at hx
  unfold Masks at h
  cases hp : x.pc <;> simp_all

theorem main_socket (hr : c.rpc = some p) (hl : ∀ l, c.link = some l → ¬ p <+: l)
    (h : ((x.pc = .restore true ∨ x.pc = .chmod) → ∃ m, fs p = some (.sock i m)) ∧ (x.running → fs p = some (.sock i 0o660))) :
    (((main c i f fs x).2.pc = .restore true ∨ (main c i f fs x).2.pc = .chmod) → ∃ m, (main c i f fs x).1 p = some (.sock i m)) ∧
      ((main c i f fs x).2.running → (main c i f fs x).1 p = some (.sock i 0o660)) := by
  obtain ⟨pc, hand, mk, sv⟩ := x
  have k : ∀ l, c.link = some l → p ≠ l := by rintro l e rfl; exact hl _ e List.prefix_rfl
  have k2 : ∀ l n, c.link = some l → p ≠ l.take n := by rintro l n e rfl; exact hl _ e (List.take_prefix _ _)
  obtain ⟨rpc, link, dev⟩ := c
  simp only at hr
  subst hr
  cases link with
  | none => cases pc <;> simp only [main] <;> (repeat' split) <;> simp_all [Inst.running, afterRpc]
  | some l =>
    have kl := k l rfl
    have kt := fun n => k2 l n rfl
    clear k k2 hl
    cases pc <;> simp only [main] <;> (repeat' split) <;> simp_all [Inst.running, afterRpc, upd]

/-- While a backend runs, its socket is at its place with mode 0660. -/
theorem C75_socket (ha : Alone cfg i p) (hr : (cfg i).rpc = some p) (hl : ∀ l, (cfg i).link = some l → ¬ p <+: l) (hu : Untouched es p)
    (fs0 : FS) (mask : Nat → Nat) (hx : ((run cfg (.init cfg fs0 mask) es).inst i).running) :
    (run cfg (.init cfg fs0 mask) es).fs p = some (.sock i 0o660) := by
  refine (induct (fun e x => ((x.pc = .restore true ∨ x.pc = .chmod) → ∃ m, e = some (.sock i m)) ∧ (x.running → e = some (.sock i 0o660)))
    ha hu ?_ ?_ ?_ ?_).2 hx
  · intro fs x f _ h
    exact main_socket hr hl h
  · intro fs x f _ h
    have e1 : (handler (cfg i) f fs x).2.running = x.running := by unfold Inst.running; rw [handler_pc]
    rw [handler_pc, e1]
    rcases handler_fs (cfg i) f fs x p with h2 | ⟨h2, _⟩
    · rw [h2]; exact h
    · exact absurd List.prefix_rfl (hl p h2)
  · rintro e x _; simp [Inst.running]
  · simp [World.init, Conf.start, hr, Inst.running]

/-! ### What is not so -/

def linkAt : Path := [['d', 'e', 'v'], ['v', 'o', 'l']]
def sockAt : Path := [['r', 'p', 'c']]
/-- Two backends asked to keep the same link. -/
def shared : Nat → Conf := fun i => ⟨none, if i < 2 then some linkAt else none, i⟩
/-- Backends with names of their own. -/
def apart : Nat → Conf := fun i => if i = 0 then ⟨some sockAt, some linkAt, 7⟩ else ⟨none, none, 0⟩
/-- An empty disk but for one entry. -/
def only (p : Path) (e : Entry) : FS := upd (fun _ => none) p (some e)
/-- `n` calls of backend `i`. -/
def calls (i n : Nat) : List Ev := List.replicate n (.main i false)

/-- A regular file at the link's path is deleted when the device is announced. -/
theorem C75_false_file (d : Bytes) : ∃ w, w.fs linkAt = some (.file d) ∧ w = .init apart (only linkAt (.file d)) (fun _ => 0) ∧
    (run apart w (calls 0 10)).fs linkAt = some (.link 7) ∧ ((run apart w (calls 0 10)).inst 0).pc = .serving true := by
  refine ⟨_, ?_, rfl, rfl, rfl⟩
  simp [World.init, only]

/-- A regular file at the socket's path is deleted when the RPC server starts. -/
theorem C75_false_socket_file (d : Bytes) :
    (run apart (.init apart (only sockAt (.file d)) (fun _ => 0)) (calls 0 5)).fs sockAt = some (.sock 0 0o660) := rfl

/-- When two backends are given the same link, the first one's end removes the second one's link while it serves. -/
theorem C75_false_shared : ∃ es, Untouched es linkAt ∧ (∀ i, Ev.main i true ∉ es ∧ Ev.kill i ∉ es) ∧
    ((run shared (.init shared (fun _ => none) (fun _ => 0)) es).inst 1).pc = .serving true ∧
    ((run shared (.init shared (fun _ => none) (fun _ => 0)) es).inst 1).hand = .idle ∧
    (run shared (.init shared (fun _ => none) (fun _ => 0)) es).fs linkAt = none := by
  refine ⟨calls 0 4 ++ calls 1 5 ++ calls 0 3, ?_, ?_, rfl, rfl, rfl⟩
  · intro e h; simp [calls] at h
  · intro i; simp [calls]

/-- A backend that is killed, or whose `run_target` fails, leaves its link, though the device is gone. -/
theorem C75_false_stale (e : Ev) (he : e = .kill 0 ∨ e = .main 0 true) :
    (run apart (.init apart (fun _ => none) (fun _ => 0)) (calls 0 9 ++ [e])).fs linkAt = some (.link 7) ∧
      ((run apart (.init apart (fun _ => none) (fun _ => 0)) (calls 0 9 ++ [e])).inst 0).pc = .failed := by
  rcases he with rfl | rfl <;> exact ⟨rfl, rfl⟩

/-- A file another program puts in the link's place between the backend's look and its removal is deleted. -/
theorem C75_false_race (d : Bytes) :
    (run apart (.init apart (fun _ => none) (fun _ => 0)) (calls 0 11 ++ [.user linkAt (some (.file d))] ++ calls 0 1)).fs linkAt = none := rfl

/-! ### Cases -/

theorem apart_alone (p : Path) : Alone apart 0 p := by
  intro j hj
  simp [apart, hj]

example (es : List Ev) (hu : ∀ q, q <+: linkAt → Untouched es q) (hf : Ev.main 0 true ∉ es) (hh : ∀ f, Ev.handler 0 f ∉ es) :
    ((run apart (.init apart (only linkAt (.link 3)) (fun _ => 0)) es).inst 0).pc ≠ .serving false := by
  refine C75_made (apart_alone _) rfl ?_ ?_ hu hf hh _ _ ?_ (by simp [only])
  · intro q h e
    have : sockAt = q := Option.some.inj e
    subst this
    exact absurd h (by decide)
  · intro j q h hne
    by_cases hj : j = 0
    · subst hj
      refine ⟨?_, fun e => hne (Option.some.inj e).symm⟩
      intro e
      have : sockAt = q := Option.some.inj e
      subst this
      exact absurd h (by decide)
    · simp [apart, hj]
  · intro q _ hne
    left
    simp [only, upd, hne]

/-- C75_serves: over a disk where a stale link is in the way. -/
example : ∃ es1 es2, calls 0 30 = es1 ++ es2 ∧ ((run apart (.init apart (only linkAt (.link 3)) (fun _ => 0)) es1).inst 0).pc = .serving true := by
  refine C75_serves (cfg := apart) (i := 0) _ _ ?_ ?_ (by simp [calls]) (by simp [calls]) (by simp [calls]) (by simp [calls, apart, linkAt])
  · intro p hp
    refine ⟨apart_alone _, by intro e h; simp [calls] at h, ?_⟩
    have : sockAt = p := Option.some.inj hp
    subst this
    simp [only, upd, sockAt, linkAt]
  · intro l hl
    have : linkAt = l := Option.some.inj hl
    subst this
    refine ⟨apart_alone _, ?_, ?_, by intro q _ e h; simp [calls] at h, fun q _ hne => .inl (by simp [only, upd, hne]), by simp [only]⟩
    · intro q h e
      have : sockAt = q := Option.some.inj e
      subst this
      exact absurd h (by decide)
    · intro j q h hne
      by_cases hj : j = 0
      · subst hj
        refine ⟨?_, fun e => hne (Option.some.inj e).symm⟩
        intro e
        have : sockAt = q := Option.some.inj e
        subst this
        exact absurd h (by decide)
      · simp [apart, hj]

/-- The theorems apply to a backend with a socket and a link over a disk where a stale link is in the way. -/
example : (run apart (.init apart (only linkAt (.link 3)) (fun _ => 0o22)) (calls 0 10)).fs linkAt = some (.link 7) :=
  C75_link (apart_alone _) rfl (by intro e h; simp [calls] at h) _ _ rfl (by decide)
example (t : Nat) : (run apart (.init apart (only linkAt (.link 3)) (fun _ => 0o22)) (calls 0 13)).fs linkAt ≠ some (.link t) :=
  C75_removed (apart_alone _) rfl (by intro e h; simp [calls] at h) (by simp [calls]) _ _ rfl t
example : (run apart (.init apart (only linkAt (.link 3)) (fun _ => 0o22)) (calls 0 10)).fs sockAt = some (.sock 0 0o660) :=
  C75_socket (apart_alone _) rfl (by intro l h; cases h; decide) (by intro e h; simp [calls] at h) _ _ trivial
example : (run apart (.init apart (only linkAt (.link 3)) (fun _ => 0o22)) (calls 0 10)).fs [['d', 'e', 'v']] = some .dir := by
  refine C75_parents (i := 0) (l := linkAt) rfl ?_ (by intro q _ _ e h; simp [calls] at h) _ _ rfl _ ⟨[['v', 'o', 'l']], rfl⟩ (by simp) (by decide)
  intro j q h hne
  unfold apart
  split
  · refine ⟨?_, fun e => hne (Option.some.inj e).symm⟩
    intro e
    have : sockAt = q := Option.some.inj e
    subst this
    exact absurd h (by decide)
  · exact ⟨by simp, by simp⟩
example : ((run apart (.init apart (only linkAt (.link 3)) (fun _ => 0o22)) (calls 0 10)).inst 0).mask = 0o22 :=
  C75_umask _ _ trivial
example (d : Bytes) : let w := run apart (.init apart (fun _ => none) (fun _ => 0)) (calls 0 9 ++ [.user linkAt (some (.file d))])
    (run apart w (calls 0 5)).fs linkAt = some (.file d) :=
  C75_keeps (apart_alone _) rfl (by decide) (by intro e h; simp [calls] at h) _ _ rfl (by simp) (.inl ⟨true, rfl⟩) (.inl rfl)

end Verif.Names
