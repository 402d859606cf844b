import Verif.Model.CoreDump

/-! # C103: secrets and core dumps

The claim for all programs is false: only three of the nine switch core dumps off (`C103_false_tools`), and these go on if they cannot
(`C103_false_failing`). -/

namespace Verif.CoreDump

/-- The process is dead by a signal after the steps `done`, the first of a run of the program, and the kernel has written its memory, with
secrets in it, to a core dump. -/
def Leaks (piped : Bool) (limit : Nat) (k : Calls) (p : Program) : Prop :=
  ∃ n done rest, p.steps n = done ++ rest ∧ (Proc.after k limit done).secrets = true ∧ (Proc.after k limit done).dumps piped = true

/-- The programs that serve a volume. -/
def Program.serves (p : Program) : Prop := p = .vhost ∨ p = .ublk ∨ p = .server

theorem after_append (k : Calls) (limit : Nat) (a b : List Step) : Proc.after k limit (a ++ b) = b.foldl (Proc.step k) (Proc.after k limit a) :=
  List.foldl_append

theorem step_dumpable {k : Calls} {p : Proc} (s : Step) (h : p.dumpable = false) : (p.step k s).dumpable = false := by
  cases s <;> simp only [Proc.step] <;> (try split) <;> simp [h]

theorem steps_dumpable {k : Calls} {p : Proc} (ss : List Step) (h : p.dumpable = false) : (ss.foldl (Proc.step k) p).dumpable = false := by
  induction ss generalizing p with
  | nil => exact h
  | cons s ss ih => exact ih (step_dumpable s h)

theorem step_limit {k : Calls} {p : Proc} (s : Step) (h : p.coreLimit = 0) : (p.step k s).coreLimit = 0 := by
  cases s <;> simp only [Proc.step] <;> (try split) <;> simp [h]

theorem steps_limit {k : Calls} {p : Proc} (ss : List Step) (h : p.coreLimit = 0) : (ss.foldl (Proc.step k) p).coreLimit = 0 := by
  induction ss generalizing p with
  | nil => exact h
  | cons s ss ih => exact ih (step_limit s h)

/-- Secrets come from `load`. -/
theorem no_load {k : Calls} {p : Proc} {ss : List Step} (h : p.secrets = false) (hl : Step.load ∉ ss) : (ss.foldl (Proc.step k) p).secrets = false := by
  induction ss generalizing p with
  | nil => exact h
  | cons s ss ih =>
    rw [List.mem_cons, not_or] at hl
    refine ih ?_ hl.2
    cases s with
    | load => exact absurd rfl hl.1
    | _ => simp only [Proc.step] <;> (try split) <;> exact h

/-- The programs that serve a volume switch dumps off before they read any secret. -/
theorem serves_steps {p : Program} (h : p.serves) (n : Nat) :
    ∃ r, p.steps n = [.logger, .setDumpable, .setCoreLimit, .args] ++ r ∧ ∀ s ∈ r, s = .load ∨ s = .work := by
  rcases h with rfl | rfl | rfl
  · exact ⟨.load :: List.replicate n .work, rfl, by simp only [List.mem_cons, List.mem_replicate]; rintro s (rfl | ⟨-, rfl⟩) <;> simp⟩
  · exact ⟨.load :: List.replicate n .work, rfl, by simp only [List.mem_cons, List.mem_replicate]; rintro s (rfl | ⟨-, rfl⟩) <;> simp⟩
  · exact ⟨.load :: .load :: List.replicate n .work, rfl, by
      simp only [List.mem_cons, List.mem_replicate]; rintro s (rfl | rfl | ⟨-, rfl⟩) <;> simp⟩

/-- A prefix with secrets has the system calls behind it. -/
theorem secrets_after {p : Program} (h : p.serves) {n limit : Nat} {k : Calls} {done rest : List Step} (e : p.steps n = done ++ rest)
    (hs : (Proc.after k limit done).secrets = true) : ∃ d, done = [.logger, .setDumpable, .setCoreLimit, .args] ++ d := by
  obtain ⟨r, hr, -⟩ := serves_steps h n
  rw [hr] at e
  rcases List.append_eq_append_iff.mp e with ⟨d, h1, -⟩ | ⟨d, h1, -⟩
  · exact ⟨d, h1⟩
  · exfalso
    have hl : Step.load ∉ done := by
      intro hm
      have : Step.load ∈ [Step.logger, .setDumpable, .setCoreLimit, .args] := by rw [h1]; exact List.mem_append_left _ hm
      simp at this
    have := no_load (k := k) (p := Proc.start limit) rfl hl
    rw [Proc.after, this] at hs
    simp at hs

/-- **C103** for the backends and the stripe server: if they could make themselves undumpable, no core dump has a secret in it, whenever they die
and however long they ran, whatever the limits are and wherever dumps go.
Missing: the other programs (`C103_false_tools`), and backends whose system call fails (`C103_limit_partial`, `C103_false_failing`). -/
theorem C103_serving_partial {p : Program} (h : p.serves) {k : Calls} (hk : k.dumpable = true) (piped : Bool) (limit : Nat) :
    ¬ Leaks piped limit k p := by
  rintro ⟨n, done, rest, e, hs, hd⟩
  obtain ⟨d, rfl⟩ := secrets_after h e hs
  have : (Proc.after k limit ([.logger, .setDumpable, .setCoreLimit, .args] ++ d)).dumpable = false := by
    rw [after_append]
    apply steps_dumpable
    cases hl : k.limit <;> simp [Proc.after, Proc.step, Proc.start, hk, hl]
  rw [Proc.dumps, this] at hd
  simp at hd

example : Program.vhost.serves ∧ (Calls.mk true false).dumpable = true := ⟨.inl rfl, rfl⟩

/-- **C103** The second call is a second line of defence: it is enough where dumps are files. -/
theorem C103_limit_partial {p : Program} (h : p.serves) {k : Calls} (hk : k.limit = true) (limit : Nat) : ¬ Leaks false limit k p := by
  rintro ⟨n, done, rest, e, hs, hd⟩
  obtain ⟨d, rfl⟩ := secrets_after h e hs
  have : (Proc.after k limit ([.logger, .setDumpable, .setCoreLimit, .args] ++ d)).coreLimit = 0 := by
    rw [after_append]
    apply steps_limit
    cases hl : k.dumpable <;> simp [Proc.after, Proc.step, Proc.start, hk, hl]
  rw [Proc.dumps, this] at hd
  simp at hd

/-- **C103** Where dumps cannot be switched off there is a warning for each call that failed, before any secret is read. -/
theorem C103_warned {p : Program} (h : p.serves) {n limit : Nat} {k : Calls} {done rest : List Step} (e : p.steps n = done ++ rest)
    (hs : (Proc.after k limit done).secrets = true) :
    (Proc.after k limit done).warnings = (if k.dumpable then 0 else 1) + (if k.limit then 0 else 1) := by
  obtain ⟨r, hr, hr2⟩ := serves_steps h n
  obtain ⟨d, rfl⟩ := secrets_after h e hs
  rw [hr, List.append_assoc] at e
  have hd : ∀ s ∈ d, s = .load ∨ s = .work := fun s hm => hr2 s (by
    rw [List.append_cancel_left e]; exact List.mem_append_left _ hm)
  have keep : ∀ (d : List Step) (q : Proc), (∀ s ∈ d, s = .load ∨ s = .work) → (d.foldl (Proc.step k) q).warnings = q.warnings := by
    intro d
    induction d with
    | nil => intro q _; rfl
    | cons s d ih =>
      intro q hq
      rw [List.foldl_cons, ih _ fun s hs => hq s (by simp [hs])]
      rcases hq s (by simp) with rfl | rfl <;> rfl
  rw [after_append, keep d _ hd]
  cases hk : k.dumpable <;> cases hl : k.limit <;> simp [Proc.after, Proc.step, Proc.start, hk, hl]

/-- **C103** is false for every other program: it reads keys and other secrets and, wherever the system writes core dumps at all, can leave them in
one. -/
theorem C103_false_tools {p : Program} (h : ¬ p.serves) (k : Calls) (piped : Bool) {limit : Nat} (hl : piped = true ∨ 0 < limit) :
    Leaks piped limit k p := by
  have hd : (Proc.start limit).dumps piped = true := by
    rcases hl with rfl | hl
    · simp [Proc.dumps, Proc.start]
    · simp [Proc.dumps, Proc.start, hl]
  cases p with
  | vhost => exact absurd (.inl rfl) h
  | ublk => exact absurd (.inr (.inl rfl)) h
  | server => exact absurd (.inr (.inr rfl)) h
  | archive => exact ⟨0, [.logger, .args, .load], [.load], rfl, rfl, hd⟩
  | _ => exact ⟨0, [.logger, .args, .load], [], rfl, rfl, hd⟩

example : ¬ Program.xts.serves := by simp [Program.serves]

/-- **C103** is false for the programs that serve a volume if the calls fail: they only warn. If dumps are piped to a program the first call is the
only one that counts. -/
theorem C103_false_failing {p : Program} (h : p.serves) :
    (∀ piped limit, piped = true ∨ 0 < limit → Leaks piped limit ⟨false, false⟩ p) ∧ ∀ limit, Leaks true limit ⟨false, true⟩ p := by
  constructor
  · intro piped limit hl
    have hd : (Proc.start limit).dumps piped = true := by
      rcases hl with rfl | hl
      · simp [Proc.dumps, Proc.start]
      · simp [Proc.dumps, Proc.start, hl]
    rcases h with rfl | rfl | rfl
    · exact ⟨0, [.logger, .setDumpable, .setCoreLimit, .args, .load], [], rfl, rfl, hd⟩
    · exact ⟨0, [.logger, .setDumpable, .setCoreLimit, .args, .load], [], rfl, rfl, hd⟩
    · exact ⟨0, [.logger, .setDumpable, .setCoreLimit, .args, .load], [.load], rfl, rfl, hd⟩
  · intro limit
    rcases h with rfl | rfl | rfl
    · exact ⟨0, [.logger, .setDumpable, .setCoreLimit, .args, .load], [], rfl, rfl, rfl⟩
    · exact ⟨0, [.logger, .setDumpable, .setCoreLimit, .args, .load], [], rfl, rfl, rfl⟩
    · exact ⟨0, [.logger, .setDumpable, .setCoreLimit, .args, .load], [.load], rfl, rfl, rfl⟩

end Verif.CoreDump
