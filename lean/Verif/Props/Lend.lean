import Verif.Proof.LendRing

/-! # C87: memory handed to the kernel

Memory given to a disk channel with a request is left alone until the request is answered. -/

set_option maxRecDepth 8000

namespace Verif.Lend
open Verif.Disk Verif.Uring

variable {D : Type} {cap : Nat} {sync whole : Bool} {v : Nat → D}

/-- On io_uring channels a program that does what it may when it is answered as it should be is answered so, and does only what it
may. -/
theorem C87_ring {P : List Ev → Prop} (hP : Safe P) {s : Sys D} {tr : List Ev} (h : OnRing cap sync whole v P s tr) :
    Answers tr ∧ Keeps tr ∧ Kernel tr :=
  have i := ring_inv hP h
  ⟨(answers_iff _).mpr i.answers, (keeps_iff _).mpr i.keeps, i.kernel⟩

/-- Whenever the kernel moves bytes of a read or write, the memory is the one given with that request, which is unanswered; it was
allocated before, large enough, and not freed, and the program has done nothing with it since. -/
theorem C87_kernel {P : List Ev → Prop} (hP : Safe P) {s : Sys D} {tr pre post : List Ev} {c id : Nat}
    (h : OnRing cap sync whole v P s tr) (ht : tr = pre ++ .kern c id :: post) :
    .flush c id ∈ pre ∨ ∃ p0 b n p1 w len p2, pre = p0 ++ .alloc b n :: p1 ++ .add c id w b len :: p2 ∧ len ≤ n ∧ .free b ∉ p1 ∧
      (∀ e ∈ p2, ¬e.uses b) ∧ ∀ rs, .poll c rs ∈ p2 → id ∉ rs.map Prod.fst := by
  obtain ⟨-, hk, hn⟩ := C87_ring hP h
  have hl := hn pre c id post ht
  have hkp : Keeps pre := keeps_prefix (ht ▸ hk)
  cases hm : (ledger pre).lent c id with
  | none => exact absurd hm hl
  | some m =>
    cases m with
    | none => exact .inl (flush_since pre c id hm)
    | some p =>
      obtain ⟨b, len⟩ := p
      obtain ⟨q, w, p2, rfl, h1, h2⟩ := lent_since pre hkp c id b len hm
      obtain ⟨⟨n, hs, hle⟩, -, -⟩ := hkp q _ p2 rfl
      obtain ⟨p0, p1, rfl, h3⟩ := size_since q b n hs
      exact .inr ⟨p0, b, n, p1, w, len, p2, rfl, hle, h3, h1, h2⟩

/-! ## The programs -/

/-- A queue's thread of a vhost volume, if it is dropped only when its channel is not busy, as it is when the guest uses the event
index. -/
theorem C87_vhost_partial (slots size : Nat) : Safe (upTo (Front.Step true) (allocs slots size) (Front.new slots size)) := front_safe slots size

/-- A read in the slot there is, a write that needs a larger one, and the end. -/
theorem front_demo : ∃ f, Run (Front.Step true) (allocs 1 512) (Front.new 1 512)
    [.alloc 0 512, .add 0 0 false 0 512, .poll 0 [(0, true)], .touch 0, .alloc 1 1024, .touch 1, .touch 1, .add 0 1 true 1 1024,
      .poll 0 [(1, true)], .free 0, .free 1] f := by
  have h1 := Run.snoc (es := [.add 0 0 false 0 512]) (Run.nil (step := Front.Step true) (tr0 := allocs 1 512) (s0 := Front.new 1 512))
    (.read _ _ 1 0 0 [] rfl rfl (by decide) rfl)
  have h2 := h1.snoc (es := [.poll 0 [(0, true)]]) (.poll _ _ rfl rfl)
  have h3 := h2.snoc (es := [.touch 0]) (.finish _ 0 true [] ⟨true, true, 0, 512⟩ 1 rfl rfl rfl)
  have h4 := h3.snoc (es := [.alloc 1 1024, .touch 1, .touch 1, .add 0 1 true 1 1024]) (.write _ _ 2 1 1 2 [.alloc 1 1024] rfl rfl (by decide) rfl)
  have h5 := h4.snoc (es := [.poll 0 [(1, true)]]) (.poll _ _ rfl rfl)
  have h6 := h5.snoc (es := []) (.finish _ 1 true [] ⟨true, false, 1, 1024⟩ 1 rfl rfl rfl)
  have h7 := h6.snoc (es := [.free 0, .free 1]) (.drop _ rfl rfl fun _ => rfl)
  exact ⟨_, h7⟩

example : Answers [.alloc 0 512, .add 0 0 false 0 512, .poll 0 [(0, true)], .touch 0, .alloc 1 1024, .touch 1, .touch 1, .add 0 1 true 1 1024,
    .poll 0 [(1, true)], .free 0, .free 1] := by
  rw [answers_iff]; simp [Ledger.law, Ledger.next, Ledger.empty]


/-- A queue's thread of a ublk volume, as long as no submission fails. -/
theorem C87_ublk_partial (q size : Nat) : Safe (upTo (Ub.Step false q size) (allocs q size) Ub.new) := ub_safe q size

/-- A read of one sector. -/
example : ∃ u, Run (Ub.Step false 2 512) (allocs 2 512) Ub.new
    [.alloc 0 512, .alloc 1 512, .add 0 1 false 1 512, .poll 0 [(1, true)], .touch 1] u := by
  have h1 := Run.snoc (es := []) (Run.nil (step := Ub.Step false 2 512) (tr0 := allocs 2 512) (s0 := Ub.new))
    (.handle _ ⟨.read, 1, 1⟩ rfl (by decide) (by simp [Ub.new]) rfl (by decide))
  have h2 := h1.snoc (es := [.add 0 1 false 1 512]) (.read _ ⟨.read, 1, 1⟩ [] rfl rfl rfl)
  have h3 := h2.snoc (es := [.poll 0 [(1, true)]]) (.poll _ _ rfl)
  have h4 := h3.snoc (es := [.touch 1]) (.finish _ ⟨.read, 1, 1⟩ 1 true [] rfl rfl)
  exact ⟨_, h4⟩


/-- The copying of stripes, as long as no submission fails. -/
theorem C87_fetcher_partial (kind : Src) (ss src tgt : Nat) :
    Safe (upTo (Fetch.Step false kind ss src tgt) (allocs 16 (ss * 512)) Fetch.new) := fetch_safe kind ss src tgt

/-- One stripe. -/
example : ∃ f, Run (Fetch.Step false .raw 1 8 8) (allocs 16 512) Fetch.new
    (allocs 16 512 ++ [.add 1 5 false 0 512, .poll 1 [(5, true)], .add 2 5 true 0 512, .poll 2 [(5, true)], .flush 2 5, .poll 2 [(5, true)]]) f := by
  have h1 := Run.snoc (es := []) (Run.nil (step := Fetch.Step false .raw 1 8 8) (tr0 := allocs 16 512) (s0 := Fetch.new)) (.request _ 5 rfl rfl rfl)
  have h2 := h1.snoc (es := [.add 1 5 false 0 512]) (.startRaw _ 5 0 [] (List.range' 1 15) rfl rfl rfl rfl rfl (by decide))
  have h3 := h2.snoc (es := [.poll 1 [(5, true)]]) (.pollRaw _ _ rfl rfl rfl)
  have h4 := h3.snoc (es := [.add 2 5 true 0 512]) (.write _ 5 0 [] rfl rfl rfl)
  have h5 := h4.snoc (es := [.poll 2 [(5, true)]]) (.pollTgt _ _ rfl rfl)
  have h6 := h5.snoc (es := [.flush 2 5]) (.tgtWritten _ 5 [] rfl rfl)
  have h7 := h6.snoc (es := [.poll 2 [(5, true)]]) (.pollTgt _ _ rfl rfl)
  have h8 := h7.snoc (es := []) (.tgtFlushed _ 5 [] rfl rfl)
  exact ⟨_, h8⟩


/-- The recording of stripe flags, as long as no submission fails. -/
theorem C87_flusher_partial (sec : Nat → Nat) : Safe (upTo (Flags.Step false sec) (allocs 16 512) Flags.new) := flags_safe sec

/-- One flag. -/
example : ∃ m, Run (Flags.Step false fun i => i / 512) (allocs 16 512) Flags.new
    (allocs 16 512 ++ [.touch 0, .add 3 7 true 0 512, .poll 3 [(7, true)], .flush 3 7, .poll 3 [(7, true)]]) m := by
  have h1 := Run.snoc (es := []) (Run.nil (step := Flags.Step false fun i => i / 512) (tr0 := allocs 16 512) (s0 := Flags.new)) (.request _ 7 rfl)
  have h2 := h1.snoc (es := [.touch 0, .add 3 7 true 0 512]) (.start _ 7 0 [] (List.range' 1 15) rfl rfl rfl (by simp [Flags.new]))
  have h3 := h2.snoc (es := [.poll 3 [(7, true)]]) (.poll _ _ rfl)
  have h4 := h3.snoc (es := [.flush 3 7]) (.written _ 7 0 [] rfl rfl)
  have h5 := h4.snoc (es := [.poll 3 [(7, true)]]) (.poll _ _ rfl)
  have h6 := h5.snoc (es := []) (.flushed _ 7 0 [] rfl rfl)
  exact ⟨_, h6⟩


/-- The archiver, as long as nothing fails. -/
theorem C87_archiver_partial (kind : Src) (q count ss src : Nat) :
    Safe (upTo (Arch.Step false kind q count ss src) (allocs q (ss * 512)) (Arch.new q)) := arch_safe kind q count ss src

/-- Two stripes, one of the disk and one of the image. -/
example : ∃ a, Run (Arch.Step false .raw 2 2 1 2) (allocs 2 512) (Arch.new 2)
    [.alloc 0 512, .alloc 1 512, .add 4 0 false 0 512, .add 5 1 false 1 512, .poll 4 [(0, true)], .poll 5 [(1, true)], .touch 0, .touch 1,
      .free 0, .free 1] a := by
  have h1 := Run.snoc (es := [.add 4 0 false 0 512]) (Run.nil (step := Arch.Step false .raw 2 2 1 2) (tr0 := allocs 2 512) (s0 := Arch.new 2))
    (.disk _ 0 [1] rfl rfl (by decide) rfl)
  have h2 := h1.snoc (es := [.add 5 1 false 1 512]) (.image _ 1 [] rfl rfl (by decide) rfl rfl (by decide))
  have h3 := h2.snoc (es := [.poll 4 [(0, true)], .poll 5 [(1, true)]]) (.poll _ _ _ rfl rfl (by intro h; cases h))
  have h4 := h3.snoc (es := [.touch 0]) (.upload _ 0 0 [(1, true)] rfl rfl rfl)
  have h5 := h4.snoc (es := [.touch 1]) (.upload _ 1 1 [] rfl rfl rfl)
  have h6 := h5.snoc (es := [.free 0, .free 1]) (.finished _ rfl rfl (by decide) fun i => by
    match i with
    | 0 => rfl
    | 1 => rfl
    | _ + 2 => rfl)
  exact ⟨_, h6⟩


/-- Code that waits for its requests one by one, as long as none takes too long. -/
theorem C87_waiting_partial : Safe (upTo (Single.Step false) [] ⟨0, .idle⟩) := single_safe

/-- A sector is saved. -/
example : ∃ s, Run (Single.Step false) [] ⟨0, .idle⟩
    [.alloc 0 512, .touch 0, .add 6 0 true 0 512, .poll 6 [(0, true)], .flush 6 1, .poll 6 [(1, true)], .free 0] s := by
  have h1 := Run.snoc (es := [.alloc 0 512, .touch 0, .add 6 0 true 0 512]) (Run.nil (step := Single.Step false) (tr0 := []) (s0 := ⟨0, .idle⟩)) (.write _ 1 rfl)
  have h2 := h1.snoc (es := [.poll 6 [(0, true)], .flush 6 1]) (.flush _ _ 0 rfl (by simp))
  have h3 := h2.snoc (es := [.poll 6 [(1, true)], .free 0]) (.gotFlush _ _ 0 rfl (by simp))
  exact ⟨_, h3⟩


/-- Encrypting channels in between. -/
theorem C87_crypt {P : List Ev → Prop} (h : Safe P) (on : Nat → Bool) : Safe (viaCrypt on P) := crypt_safe h on

/-- A read decrypted in its buffer, and a write encrypted there. -/
example : crypts (fun _ => true) (fun _ _ => none)
      [.alloc 0 512, .add 0 0 false 0 512, .poll 0 [(0, true)], .add 0 1 true 0 512, .poll 0 [(1, true)]] =
    [.alloc 0 512, .add 0 0 false 0 512, .poll 0 [(0, true)], .touch 0, .touch 0, .add 0 1 true 0 512, .poll 0 [(1, true)]] := rfl


/-- A lazy channel in between, as long as no submission fails. -/
theorem C87_lazy_partial {P : List Ev → Prop} (h : Safe P) : Safe (viaLazy false P) := lazy_safe h

/-- Above a lazy channel, too, only unanswered requests are answered, each once. -/
theorem C87_lazy_answers_partial {P : List Ev → Prop} (h : Safe P) {us ls : List Ev} {z : Lazy} (hr : Lazy.Run false us ls z) (hu : P us)
    (ha : Answers ls) : Answers us := (lazy_run h hr hu ha).1

/-- A read that waits for its stripe, then goes to the disk. -/
example : ∃ z, Lazy.Run false [.alloc 0 512, .add 0 0 false 0 512, .poll 0 [], .poll 0 [(0, true)], .touch 0]
    [.alloc 0 512, .poll 0 [], .poll 1 [], .add 0 0 false 0 512, .poll 0 [(0, true)], .poll 1 [], .touch 0] z := by
  have h1 := Lazy.Run.snoc (Lazy.Run.nil (refusals := false)) (.alloc _ 0 512)
  have h2 := h1.snoc (es := []) (.queued _ 0 false 0 512)
  have h3 := h2.snoc (es := [.poll 0 [], .poll 1 []]) (e := .poll 0 []) (.poll _ [] [⟨0, false, 0, 512⟩] [] [] rfl)
  have h4 := h3.snoc (es := [.add 0 0 false 0 512, .poll 0 [(0, true)], .poll 1 []]) (e := .poll 0 [(0, true)])
    (.poll _ [(⟨0, false, 0, 512⟩, true)] [] [(0, true)] [] rfl)
  have h5 := h4.snoc (.touch _ 0)
  exact ⟨_, h5⟩


/-- Threads with memory and channels of their own. -/
theorem C87_threads {bn cn : Nat → Nat → Nat} {P : Nat → List Ev → Prop} (hP : ∀ i, Safe (P i))
    (hb : ∀ i b j b', bn i b = bn j b' → i = j ∧ b = b') (hc : ∀ i c j c', cn i c = cn j c' → i = j ∧ c = c') :
    Safe (Threads bn cn P) := threads_safe hP hb hc

example : (∀ i b j b' : Nat, 2 ^ i * (2 * b + 1) = 2 ^ j * (2 * b' + 1) → i = j ∧ b = b') := by
  intro i b j b' h
  have key : ∀ i j : Nat, i < j → ∀ b b', 2 ^ i * (2 * b + 1) ≠ 2 ^ j * (2 * b' + 1) := by
    intro i j hij b b' h
    obtain ⟨d, rfl⟩ : ∃ d, j = i + 1 + d := ⟨j - i - 1, by omega⟩
    rw [Nat.pow_add, Nat.pow_add, Nat.mul_assoc, Nat.mul_assoc] at h
    have := Nat.eq_of_mul_eq_mul_left (Nat.pow_pos (by decide)) h
    omega
  rcases Nat.lt_trichotomy i j with hij | rfl | hij
  · exact absurd h (key i j hij b b')
  · have := Nat.eq_of_mul_eq_mul_left (Nat.pow_pos (by decide)) h
    omega
  · exact absurd h.symm (key j i hij b' b)


/-- All threads of a vhost volume on io_uring channels: what the kernel finds, and that nothing else is done with memory it may still
use. -/
theorem C87_volume_partial {bn cn : Nat → Nat → Nat} (hb : ∀ i b j b', bn i b = bn j b' → i = j ∧ b = b')
    (hc : ∀ i c j c', cn i c = cn j c' → i = j ∧ c = c') {on : Nat → Bool} {kind : Src} {ss src tgt slots size : Nat} {sec : Nat → Nat}
    {s : Sys D} {tr pre post : List Ev} {c id : Nat}
    (h : OnRing cap sync whole v (Threads bn cn (volume on kind ss src tgt sec slots size)) s tr) (ht : tr = pre ++ .kern c id :: post) :
    .flush c id ∈ pre ∨ ∃ p0 b n p1 w len p2, pre = p0 ++ .alloc b n :: p1 ++ .add c id w b len :: p2 ∧ len ≤ n ∧ .free b ∉ p1 ∧
      (∀ e ∈ p2, ¬e.uses b) ∧ ∀ rs, .poll c rs ∈ p2 → id ∉ rs.map Prod.fst := by
  refine C87_kernel (C87_threads (fun i => ?_) hb hc) h ht
  match i with
  | 0 => exact C87_crypt (C87_fetcher_partial kind ss src tgt) on
  | 1 => exact C87_crypt (C87_flusher_partial sec) on
  | _ + 2 => exact C87_crypt (C87_lazy_partial (C87_vhost_partial slots size)) on

/-- The kernel carries out a read of a vhost thread's. -/
example : ∃ s : Sys Nat, OnRing 4 false false (fun _ => 0) (upTo (Front.Step true) (allocs 1 512) (Front.new 1 512)) s
    [.alloc 0 512, .add 0 0 false 0 512, .kern 0 0, .poll 0 [(0, true)], .touch 0] := by
  obtain ⟨f, hf⟩ := front_demo
  have h1 := OnRing.alloc (cap := 4) (sync := false) (whole := false) (v := fun _ => 0) (P := upTo (Front.Step true) (allocs 1 512) (Front.new 1 512))
    (D := Nat) 0 512 .start ⟨_, f, hf, ⟨_, rfl⟩⟩
  have h2 := OnRing.add 0 0 0 false (.read 3 1) h1 rfl ⟨_, f, hf, ⟨_, rfl⟩⟩
  have h3 := OnRing.submit 0 1 h2 (.submit _ 0 1 (by decide) (by decide))
  have h4 := OnRing.kern 0 0 3 h3 (by decide)
  have h5 := OnRing.done 0 0 512 h4 (.done _ 0 0 512 _ rfl (by intro h; cases h))
  have h6 := OnRing.poll 0 [(0, true)] h5 rfl ⟨_, f, hf, ⟨_, rfl⟩⟩
  have h7 := OnRing.touch 0 h6 ⟨_, f, hf, ⟨_, rfl⟩⟩
  exact ⟨_, h7⟩


/-! ## What goes wrong -/

/-- A vhost thread dropped while its channel is busy frees memory the kernel may still write. -/
theorem C87_false_vhost :
    ∃ f, Run (Front.Step false) (allocs 1 512) (Front.new 1 512) [.alloc 0 512, .add 0 0 false 0 512, .free 0] f ∧
      Answers [.alloc 0 512, .add 0 0 false 0 512, .free 0] ∧ ¬Keeps [.alloc 0 512, .add 0 0 false 0 512, .free 0] := by
  refine ⟨_, .snoc (es := [.free 0]) (.snoc (es := [.add 0 0 false 0 512]) .nil (.read _ _ 1 0 0 [] rfl rfl (by decide) rfl))
    (.drop _ rfl rfl (by simp)), ?_, ?_⟩
  · exact (answers_iff _).mpr (law_of_noPolls (by simp [Ev.isPoll]))
  · intro h
    exact (h [.alloc 0 512, .add 0 0 false 0 512] (.free 0) [] rfl).2 0 0 512 rfl

/-- After a failed submission a ublk thread uses again the buffer of a request that is still with the kernel. -/
theorem C87_false_ublk :
    ∃ u, Run (Ub.Step true 1 512) (allocs 1 512) Ub.new
        [.alloc 0 512, .touch 0, .add 0 0 true 0 512, .touch 0, .add 0 0 true 0 512] u ∧
      Answers [.alloc 0 512, .touch 0, .add 0 0 true 0 512, .touch 0, .add 0 0 true 0 512] ∧
      ¬Keeps [.alloc 0 512, .touch 0, .add 0 0 true 0 512, .touch 0, .add 0 0 true 0 512] := by
  have h1 : Run (Ub.Step true 1 512) (allocs 1 512) Ub.new [.alloc 0 512] _ :=
    .snoc (es := []) .nil (.handle _ ⟨.write, 1, 0⟩ rfl (by decide) (by simp [Ub.new]) rfl (by decide))
  have h2 : Run (Ub.Step true 1 512) (allocs 1 512) Ub.new [.alloc 0 512, .touch 0, .add 0 0 true 0 512] _ :=
    .snoc (es := [.touch 0, .add 0 0 true 0 512]) h1 (.write _ ⟨.write, 1, 0⟩ [] rfl rfl rfl)
  have h3 : Run (Ub.Step true 1 512) (allocs 1 512) Ub.new [.alloc 0 512, .touch 0, .add 0 0 true 0 512] _ :=
    .snoc (es := []) h2 (.refused _ rfl rfl)
  have h4 : Run (Ub.Step true 1 512) (allocs 1 512) Ub.new [.alloc 0 512, .touch 0, .add 0 0 true 0 512] _ :=
    .snoc (es := []) h3 (.handle _ ⟨.write, 1, 0⟩ rfl (by decide) (by simp) rfl (by decide))
  refine ⟨_, .snoc (es := [.touch 0, .add 0 0 true 0 512]) h4 (.write _ ⟨.write, 1, 0⟩ [] rfl rfl rfl), ?_, ?_⟩
  · exact (answers_iff _).mpr (law_of_noPolls (by simp [Ev.isPoll]))
  · intro h
    exact (h [.alloc 0 512, .touch 0, .add 0 0 true 0 512] (.touch 0) [.add 0 0 true 0 512] rfl).2 0 0 512 rfl

/-- After a failed submission the copying of a stripe starts again with the number of a request that is still with the kernel. -/
theorem C87_false_fetcher :
    ∃ f, Run (Fetch.Step true .raw 1 8 8) (allocs 16 512) Fetch.new
        (allocs 16 512 ++ [.add 1 0 false 0 512] ++ [.add 1 0 false 1 512]) f ∧
      Answers (allocs 16 512 ++ [.add 1 0 false 0 512] ++ [.add 1 0 false 1 512]) ∧
      ¬Keeps (allocs 16 512 ++ [.add 1 0 false 0 512] ++ [.add 1 0 false 1 512]) := by
  refine ⟨_, .snoc (.snoc (.snoc (es := []) .nil (.request _ 0 rfl rfl rfl))
    (.startRefused _ 0 0 [] (List.range' 1 15) true rfl rfl rfl rfl rfl rfl (by decide)))
    (.startRaw _ 0 1 [] (List.range' 2 14 ++ [0]) rfl rfl rfl rfl rfl (by decide)), ?_, ?_⟩
  · refine (answers_iff _).mpr (law_of_noPolls fun e he => ?_)
    simp only [List.mem_append, List.mem_singleton, allocs, List.mem_map] at he
    rcases he with (⟨b, -, rfl⟩ | rfl) | rfl <;> rfl
  · intro h
    have := (h (allocs 16 512 ++ [.add 1 0 false 0 512]) (.add 1 0 false 1 512) [] rfl).2.2
    cases this

/-- After a failed submission flags are written again with the number of a write that is still with the kernel. -/
theorem C87_false_flusher :
    ∃ m, Run (Flags.Step true fun _ => 0) (allocs 16 512) Flags.new
        (allocs 16 512 ++ [.touch 0, .add 3 0 true 0 512] ++ [.touch 1, .add 3 0 true 1 512]) m ∧
      Answers (allocs 16 512 ++ [.touch 0, .add 3 0 true 0 512] ++ [.touch 1, .add 3 0 true 1 512]) ∧
      ¬Keeps (allocs 16 512 ++ [.touch 0, .add 3 0 true 0 512] ++ [.touch 1, .add 3 0 true 1 512]) := by
  refine ⟨_, .snoc (es := [.touch 1, .add 3 0 true 1 512]) (.snoc (es := []) (.snoc (es := []) (.snoc (es := [.touch 0, .add 3 0 true 0 512])
    (.snoc (es := []) .nil (.request _ 0 rfl)) (.start _ 0 0 [] (List.range' 1 15) rfl rfl rfl (by simp [Flags.new])))
    (.startRefused _ 0 0 rfl rfl rfl)) (.request _ 0 rfl))
    (.start _ 0 1 [] (List.range' 2 14 ++ [0]) rfl rfl rfl (by simp [Flags.new])), ?_, ?_⟩
  · refine (answers_iff _).mpr (law_of_noPolls fun e he => ?_)
    simp only [List.mem_append, List.mem_cons, List.not_mem_nil, or_false, allocs, List.mem_map] at he
    rcases he with (⟨b, -, rfl⟩ | rfl | rfl) | rfl | rfl <;> rfl
  · intro h
    have := (h (allocs 16 512 ++ [.touch 0, .add 3 0 true 0 512] ++ [.touch 1]) (.add 3 0 true 1 512) [] rfl).2.2
    cases this

/-- An archiver that fails frees memory the kernel may still write. -/
theorem C87_false_archiver :
    ∃ a, Run (Arch.Step true .raw 1 8 1 8) (allocs 1 512) (Arch.new 1) [.alloc 0 512, .add 4 0 false 0 512, .free 0] a ∧
      Answers [.alloc 0 512, .add 4 0 false 0 512, .free 0] ∧ ¬Keeps [.alloc 0 512, .add 4 0 false 0 512, .free 0] := by
  refine ⟨_, .snoc (es := [.free 0]) (.snoc (es := [.add 4 0 false 0 512]) .nil (.disk _ 0 [] rfl rfl (by decide) rfl)) (.failed _ rfl rfl), ?_, ?_⟩
  · exact (answers_iff _).mpr (law_of_noPolls (by simp [Ev.isPoll]))
  · intro h
    exact (h [.alloc 0 512, .add 4 0 false 0 512] (.free 0) [] rfl).2 4 0 512 rfl

/-- Code that gives up waiting frees memory the kernel may still write. -/
theorem C87_false_waiting :
    ∃ s, Run (Single.Step true) [] ⟨0, .idle⟩ [.alloc 0 512, .add 6 0 false 0 512, .free 0] s ∧
      Answers [.alloc 0 512, .add 6 0 false 0 512, .free 0] ∧ ¬Keeps [.alloc 0 512, .add 6 0 false 0 512, .free 0] := by
  refine ⟨_, .snoc (es := [.free 0]) (.snoc (es := [.alloc 0 512, .add 6 0 false 0 512]) .nil (.read _ 1 rfl)) (.timeout _ 0 true rfl rfl), ?_, ?_⟩
  · exact (answers_iff _).mpr (law_of_noPolls (by simp [Ev.isPoll]))
  · intro h
    exact (h [.alloc 0 512, .add 6 0 false 0 512] (.free 0) [] rfl).2 6 0 512 rfl

/-- After a failed submission a lazy channel answers a request that is still with the kernel, and its user frees the memory. -/
theorem C87_false_lazy :
    ∃ z, Lazy.Run true [.alloc 0 512, .add 0 0 false 0 512, .poll 0 [(0, false)], .free 0]
        [.alloc 0 512, .add 0 0 false 0 512, .poll 0 [], .poll 1 [], .free 0] z ∧
      Answers [.alloc 0 512, .add 0 0 false 0 512, .poll 0 [(0, false)], .free 0] ∧
      Keeps [.alloc 0 512, .add 0 0 false 0 512, .poll 0 [(0, false)], .free 0] ∧
      Answers [.alloc 0 512, .add 0 0 false 0 512, .poll 0 [], .poll 1 [], .free 0] ∧
      ¬Keeps [.alloc 0 512, .add 0 0 false 0 512, .poll 0 [], .poll 1 [], .free 0] := by
  refine ⟨_, .snoc (us := [.alloc 0 512, .add 0 0 false 0 512, .poll 0 [(0, false)]]) (ls := [.alloc 0 512, .add 0 0 false 0 512, .poll 0 [], .poll 1 []])
    (.snoc (us := [.alloc 0 512, .add 0 0 false 0 512]) (ls := [.alloc 0 512]) (es := [.add 0 0 false 0 512, .poll 0 [], .poll 1 []])
      (.snoc (us := [.alloc 0 512]) (ls := [.alloc 0 512]) (es := []) (.snoc (us := []) (ls := []) .nil (.alloc _ 0 512)) (.queued _ 0 false 0 512))
      (.pollRefused _ [(⟨0, false, 0, 512⟩, true)] [] [] [] rfl rfl)) (.free _ 0), ?_, ?_, ?_, ?_⟩
  · rw [answers_iff]; simp [Ledger.law, Ledger.next, Ledger.empty]
  · rw [keeps_iff]
    simp [Ledger.allows, Ledger.next, Ledger.empty, Ledger.quiet]
    intro c id len h hc hi
    exact absurd hi (h hc)
  · rw [answers_iff]; simp [Ledger.law]
  · intro h
    exact (h [.alloc 0 512, .add 0 0 false 0 512, .poll 0 [], .poll 1 []] (.free 0) [] rfl).2 0 0 512 rfl

end Verif.Lend
