import Verif.Proof.LendPool

/-! # Proofs about memory lent to the kernel: moments within a step, the channels in between, and threads -/

namespace Verif.Lend

def Ev.isPoll : Ev → Bool
  | .poll _ _ => true
  | _ => false

theorem law_of_noPolls {k : Ledger} {es : List Ev} (h : ∀ e ∈ es, e.isPoll = false) : Law k es := by
  induction es generalizing k with
  | nil => trivial
  | cons e es ih =>
    refine ⟨?_, ih fun x hx => h x (by simp [hx])⟩
    have := h e (by simp)
    cases e <;> first | trivial | cases this

theorem fine_of_polls {k : Ledger} {es : List Ev} (h : ∀ e ∈ es, e.isPoll = true) : Fine k es := by
  induction es generalizing k with
  | nil => trivial
  | cons e es ih =>
    refine ⟨?_, ih fun x hx => h x (by simp [hx])⟩
    have := h e (by simp)
    cases e <;> first | trivial | cases this

/-- Answers are collected first, if at all. -/
def PollsFirst (es : List Ev) : Prop := ∃ ps ns, es = ps ++ ns ∧ (∀ e ∈ ps, e.isPoll = true) ∧ ∀ e ∈ ns, e.isPoll = false

theorem prefix_append {α : Type} {p a b : List α} (h : p <+: a ++ b) : p <+: a ∨ ∃ q, q <+: b ∧ p = a ++ q := by
  obtain ⟨t, ht⟩ := h
  rcases List.append_eq_append_iff.mp ht with ⟨x, h1, h2⟩ | ⟨x, h1, h2⟩
  · exact .inl ⟨x, h1.symm⟩
  · exact .inr ⟨x, ⟨t, h2.symm⟩, h1⟩

theorem fine_prefix {k : Ledger} {p es : List Ev} (h : p <+: es) (hf : Fine k es) : Fine k p := by
  obtain ⟨t, rfl⟩ := h
  exact ((fine_append ..).mp hf).1

theorem law_prefix {k : Ledger} {p es : List Ev} (h : p <+: es) (hf : Law k es) : Law k p := by
  obtain ⟨t, rfl⟩ := h
  exact ((law_append ..).mp hf).1

theorem PollsFirst.cut {k : Ledger} {es p : List Ev} (h : PollsFirst es) (hf : Law k es → Fine k es) (hp : p <+: es) (hl : Law k p) :
    Fine k p := by
  obtain ⟨ps, ns, rfl, h1, h2⟩ := h
  rcases prefix_append hp with hp | ⟨q, hq, rfl⟩
  · exact fine_prefix hp (fine_of_polls h1)
  · refine fine_prefix hp (hf ?_)
    rw [law_append] at hl ⊢
    exact ⟨hl.1, law_of_noPolls h2⟩

/-- Invariants of a user, at any moment. -/
theorem run_safe {S : Type} {step : S → List Ev → S → Prop} {tr0 : List Ev} {s0 : S} (Inv : S → Ledger → Prop)
    (h0 : Fine .empty tr0) (h1 : Inv s0 (ledger tr0))
    (hs : ∀ s es s' k, Inv s k → step s es s' → Law k es → Fine k es ∧ Inv s' (run k es))
    (hp : ∀ s es s', step s es s' → PollsFirst es) : Safe (upTo step tr0 s0) where
  cut := fun a b ⟨tr', s, h, hab⟩ => ⟨tr', s, h, (List.prefix_append a b).trans hab⟩
  keeps := by
    rintro tr ⟨tr', s, h, hx⟩ ha
    rw [keeps_iff]; rw [answers_iff] at ha
    induction h with
    | nil => exact fine_prefix hx h0
    | snoc hr st ih =>
      rcases prefix_append hx with hx | ⟨q, hq, rfl⟩
      · exact ih hx
      · rw [law_append] at ha
        obtain ⟨i1, i2⟩ := run_keeps Inv h0 h1 hs hr ((answers_iff _).mpr ha.1)
        rw [fine_append]
        exact ⟨(keeps_iff _).mp i1, (hp _ _ _ st).cut (fun hl => (hs _ _ _ _ i2 st hl).1) hq ha.2⟩

theorem pollsFirst_none {es : List Ev} (h : ∀ e ∈ es, e.isPoll = false) : PollsFirst es := ⟨[], es, rfl, by simp, h⟩
theorem pollsFirst_poll (c : Nat) (rs : List (Nat × Bool)) {es : List Ev} (h : ∀ e ∈ es, e.isPoll = false) :
    PollsFirst (.poll c rs :: es) := ⟨[.poll c rs], es, rfl, by simp [Ev.isPoll], h⟩

theorem getSlot_noPoll {f f' : Front} {n i b : Nat} {rd : Bool} {es : List Ev} (h : f.getSlot n rd = (f', es, i, b)) :
    ∀ e ∈ es, e.isPoll = false := by
  unfold Front.getSlot at h
  split at h
  · cases h; simp
  · cases h; simp [Ev.isPoll]

theorem front_polls (s : Front) (es : List Ev) (s' : Front) (h : Front.Step true s es s') : PollsFirst es := by
  cases h with
  | read f' n i b es hg hd hn he =>
    exact pollsFirst_none fun e h => by
      rw [List.mem_append] at h
      rcases h with h | h
      · exact getSlot_noPoll he e h
      · rw [List.mem_singleton] at h; rw [h]; rfl
  | write f' n i b k es hg hd hn he =>
    exact pollsFirst_none fun e h => by
      rw [List.mem_append, List.mem_append] at h
      rcases h with (h | h) | h
      · exact getSlot_noPoll he e h
      · rw [List.eq_of_mem_replicate h]; rfl
      · rw [List.mem_singleton] at h; rw [h]; rfl
  | writeBad f' n i b k es hg hd he =>
    exact pollsFirst_none fun e h => by
      rw [List.mem_append] at h
      rcases h with h | h
      · exact getSlot_noPoll he e h
      · rw [List.eq_of_mem_replicate h]; rfl
  | flush f' i b es hg hd he =>
    exact pollsFirst_none fun e h => by
      rw [List.mem_append] at h
      rcases h with h | h
      · exact getSlot_noPoll he e h
      · rw [List.mem_singleton] at h; rw [h]; rfl
  | poll rs => exact pollsFirst_poll 0 rs (by simp)
  | finish i ok rest s k =>
    exact pollsFirst_none fun e h => by
      split at h
      · rw [List.eq_of_mem_replicate h]; rfl
      · cases h
  | drop =>
    exact pollsFirst_none fun e h => by
      rw [List.mem_map] at h; obtain ⟨x, -, rfl⟩ := h; rfl

theorem front_safe (q size : Nat) : Safe (upTo (Front.Step true) (allocs q size) (Front.new q size)) :=
  run_safe (fun s k => s.gone = true ∨ FInv s k) (allocs_fine _ _ _ fun _ _ => rfl) (.inr (front_start q size)) front_inv front_polls

theorem ub_start (q size : Nat) : UInv q size Ub.new (ledger (allocs q size)) := by
  rw [ledger_eq, allocs_run]
  exact ⟨fun t ht => by simp [ht], fun r hr => (by cases hr), fun i r hr => (by cases hr), List.nodup_nil, fun c i m hm => (by cases hm),
    fun p hp => (by cases hp)⟩

theorem ub_safe (q size : Nat) : Safe (upTo (Ub.Step false q size) (allocs q size) Ub.new) := by
  refine run_safe (UInv q size) (allocs_fine _ _ _ fun _ _ => rfl) (ub_start q size) ub_inv ?_
  intro s es s' h
  cases h with
  | poll rs => exact pollsFirst_poll 0 rs (by simp)
  | finish r i ok rest =>
    exact pollsFirst_none fun e h => by
      split at h
      · rw [List.mem_singleton] at h; rw [h]; rfl
      · cases h
  | _ => exact pollsFirst_none (by simp [Ev.isPoll])

theorem single_safe : Safe (upTo (Single.Step false) [] ⟨0, .idle⟩) := by
  refine run_safe SInv (fine_nil _) ⟨fun _ _ => rfl, fun _ _ _ => rfl, fun _ _ hx => (by cases hx), fun _ hx => (by cases hx)⟩ single_inv ?_
  intro s es s' h
  cases h with
  | poll rs => exact pollsFirst_poll 6 rs (by simp)
  | pollFlush rs => exact pollsFirst_poll 6 rs (by simp)
  | gotRead rs => exact pollsFirst_poll 6 rs (by simp [Ev.isPoll])
  | gotWrite rs => exact pollsFirst_poll 6 rs (by simp [Ev.isPoll])
  | flush rs => exact pollsFirst_poll 6 rs (by simp [Ev.isPoll])
  | gotFlush rs => exact pollsFirst_poll 6 rs (by simp [Ev.isPoll])
  | failed rs => exact pollsFirst_poll 6 rs (by simp [Ev.isPoll])
  | _ => exact pollsFirst_none (by simp [Ev.isPoll])

theorem fetch_start (ss : Nat) : PInv ss Fetch.new (ledger (allocs 16 (ss * 512))) := by
  rw [ledger_eq, allocs_run]
  exact ⟨fun b hb => by simp [hb], List.nodup_range, fun b hb => List.mem_range.mp hb, fun i b hb => (by cases hb), fun i j b hb => (by cases hb),
    List.nodup_nil, fun i hi => (by cases hi), fun i => Nat.zero_le _, fun i hi => absurd rfl hi, fun c i m hm => (by cases hm)⟩

theorem fetch_safe (kind : Src) (ss src tgt : Nat) : Safe (upTo (Fetch.Step false kind ss src tgt) (allocs 16 (ss * 512)) Fetch.new) := by
  refine run_safe (PInv ss) (allocs_fine _ _ _ fun _ _ => rfl) (fetch_start ss) fetch_inv ?_
  intro s es s' h
  cases h with
  | pollRaw rs => exact pollsFirst_poll 1 rs (by simp)
  | pollTgt rs => exact pollsFirst_poll 2 rs (by simp)
  | pollCopied i b ok =>
    exact pollsFirst_none fun e h => by
      split at h
      · rw [List.mem_singleton] at h; rw [h]; rfl
      · cases h
  | _ => exact pollsFirst_none (by simp [Ev.isPoll])

theorem flags_start (sec : Nat → Nat) : MInv sec Flags.new (ledger (allocs 16 512)) := by
  rw [ledger_eq, allocs_run]
  exact ⟨fun b hb => by simp [hb], List.nodup_range, fun b hb => List.mem_range.mp hb, fun i b hb => (by cases hb), fun i j b hb => (by cases hb),
    fun i hi => absurd rfl hi, fun i j hi => absurd rfl hi, fun i => Nat.zero_le _, fun i hi => absurd rfl hi, fun c i m hm => (by cases hm)⟩

theorem flags_safe (sec : Nat → Nat) : Safe (upTo (Flags.Step false sec) (allocs 16 512) Flags.new) := by
  refine run_safe (MInv sec) (allocs_fine _ _ _ fun _ _ => rfl) (flags_start sec) flags_inv ?_
  intro s es s' h
  cases h with
  | poll rs => exact pollsFirst_poll 3 rs (by simp)
  | _ => exact pollsFirst_none (by simp [Ev.isPoll])

theorem arch_start (q ss : Nat) : AInv q ss (Arch.new q) (ledger (allocs q (ss * 512))) := by
  rw [ledger_eq, allocs_run]
  exact ⟨fun b hb => by simp [hb], List.nodup_range, fun b hb => List.mem_range.mp hb, fun i b hb => (by cases hb), fun i j b hb => (by cases hb),
    fun i => Nat.zero_le _, fun i hi => absurd rfl hi, fun c i m hm => (by cases hm)⟩

theorem arch_safe (kind : Src) (q count ss src : Nat) :
    Safe (upTo (Arch.Step false kind q count ss src) (allocs q (ss * 512)) (Arch.new q)) := by
  refine run_safe (fun a k => a.gone = true ∨ AInv q ss a k) (allocs_fine _ _ _ fun _ _ => rfl) (.inr (arch_start q ss)) arch_inv ?_
  intro s es s' h
  cases h with
  | poll rs rs' => exact ⟨[.poll 4 rs, .poll 5 rs'], [], rfl, by simp [Ev.isPoll], by simp⟩
  | pollCopied i b ok =>
    exact pollsFirst_none fun e h => by
      split at h
      · rw [List.mem_singleton] at h; rw [h]; rfl
      · cases h
  | finished =>
    exact pollsFirst_none fun e h => by
      rw [List.mem_map] at h; obtain ⟨x, -, rfl⟩ := h; rfl
  | failed =>
    exact pollsFirst_none fun e h => by
      rw [List.mem_map] at h; obtain ⟨x, -, rfl⟩ := h; rfl
  | _ => exact pollsFirst_none (by simp [Ev.isPoll])

/-! ## The encrypting channel -/

theorem cryptPoll_rd (c : Nat) (rd : Reads) (rs : List (Nat × Bool)) :
    (cryptPoll c rd rs).1 = fun c' i => if c' = c ∧ i ∈ rs.map Prod.fst then none else rd c' i := by
  induction rs generalizing rd with
  | nil => simp [cryptPoll]
  | cons p rs ih =>
    obtain ⟨id, ok⟩ := p
    have : (cryptPoll c rd ((id, ok) :: rs)).1 = (cryptPoll c (fun c' i => if c' = c ∧ i = id then none else rd c' i) rs).1 := by
      simp only [cryptPoll]; split <;> rfl
    rw [this, ih]
    funext c' i
    by_cases h1 : c' = c <;> by_cases h2 : i = id <;> by_cases h3 : i ∈ rs.map Prod.fst <;> simp [h1, h2, h3]

theorem cryptPoll_touch (c : Nat) (rd : Reads) (rs : List (Nat × Bool)) :
    ∀ e ∈ (cryptPoll c rd rs).2, ∃ b id ok, e = .touch b ∧ (id, ok) ∈ rs ∧ rd c id = some b := by
  induction rs generalizing rd with
  | nil => simp [cryptPoll]
  | cons p rs ih =>
    obtain ⟨id, ok⟩ := p
    intro e he
    have hrest : e ∈ (cryptPoll c (fun c' i => if c' = c ∧ i = id then none else rd c' i) rs).2 →
        ∃ b id' ok', e = .touch b ∧ (id', ok') ∈ (id, ok) :: rs ∧ rd c id' = some b := by
      intro he
      obtain ⟨b, id', ok', h1, h2, h3⟩ := ih _ e he
      refine ⟨b, id', ok', h1, by simp [h2], ?_⟩
      simp only at h3
      split at h3
      · cases h3
      · exact h3
    simp only [cryptPoll] at he
    split at he
    · rename_i b hb
      simp only [List.mem_append] at he
      rcases he with he | he
      · split at he
        · rw [List.mem_singleton] at he; exact ⟨b, id, ok, he, by simp, hb⟩
        · cases he
      · exact hrest he
    · exact hrest he

theorem touch_run {k : Ledger} {es : List Ev} (h : ∀ e ∈ es, ∃ b, e = .touch b) : run k es = k := by
  induction es generalizing k with
  | nil => rfl
  | cons e es ih =>
    obtain ⟨b, rfl⟩ := h e (by simp)
    exact ih fun x hx => h x (by simp [hx])

theorem touch_fine {k : Ledger} {es : List Ev} (h : ∀ e ∈ es, ∃ b, e = .touch b ∧ k.size b ≠ none ∧ k.quiet b) : Fine k es := by
  induction es generalizing k with
  | nil => trivial
  | cons e es ih =>
    obtain ⟨b, rfl, h1, h2⟩ := h e (by simp)
    exact ⟨⟨h1, h2⟩, ih fun x hx => h x (by simp [hx])⟩

theorem crypt_run (on : Nat → Bool) (rd : Reads) (k : Ledger) (e : Ev) : run k (crypt on rd e).2 = k.next e := by
  unfold crypt
  split
  · split <;> rfl
  · simp only; split <;> rfl
  · split
    · simp only [run_cons]
      exact touch_run fun e he => by obtain ⟨b, _, _, h, _⟩ := cryptPoll_touch _ _ _ e he; exact ⟨b, h⟩
    · rfl
  · rfl

theorem crypt_law (on : Nat → Bool) (rd : Reads) (k : Ledger) (e : Ev) : Law k (crypt on rd e).2 ↔ k.law e := by
  unfold crypt
  split
  · split <;> simp [Ledger.law]
  · simp only; split <;> simp [Ledger.law]
  · split
    · simp only [law_cons]
      refine and_iff_left (law_of_noPolls fun e he => ?_)
      obtain ⟨b, _, _, h, _⟩ := cryptPoll_touch _ _ _ e he; rw [h]; rfl
    · simp
  · simp

def RInv (on : Nat → Bool) (rd : Reads) (k : Ledger) : Prop :=
  ∀ c id b, rd c id = some b → on c = true ∧ ∃ len, k.lent c id = some (some (b, len))

theorem crypt_fine {on : Nat → Bool} {rd : Reads} {k : Ledger} {e : Ev} (hs : Sound k) (hr : RInv on rd k) (ha : k.allows e) :
    Fine k (crypt on rd e).2 ∧ RInv on (crypt on rd e).1 (k.next e) := by
  have keep : (k.next e).lent = k.lent → RInv on rd (k.next e) := fun he c id b hb => by rw [he]; exact hr c id b hb
  cases e with
  | alloc b n => exact ⟨⟨ha, trivial⟩, keep rfl⟩
  | free b => exact ⟨⟨ha, trivial⟩, keep rfl⟩
  | touch b => exact ⟨⟨ha, trivial⟩, keep rfl⟩
  | kern c id => exact ⟨⟨ha, trivial⟩, keep rfl⟩
  | flush c id =>
    refine ⟨⟨ha, trivial⟩, fun c' i b hb => ?_⟩
    obtain ⟨ho, len, hl⟩ := hr c' i b hb
    refine ⟨ho, len, ?_⟩
    simp only [Ledger.next]
    rw [if_neg]
    · exact hl
    · rintro ⟨rfl, rfl⟩
      have : k.lent c' i = none := ha
      rw [this] at hl; cases hl
  | add c id w b len =>
    have old : ∀ c' i x, rd c' i = some x → on c' = true ∧ ∃ l, (k.next (.add c id w b len)).lent c' i = some (some (x, l)) := by
      intro c' i x hx
      obtain ⟨ho, l, hl⟩ := hr c' i x hx
      refine ⟨ho, l, ?_⟩
      simp only [Ledger.next]
      rw [if_neg]
      · exact hl
      · rintro ⟨rfl, rfl⟩
        rw [ha.2.2] at hl; cases hl
    cases w with
    | false =>
      simp only [crypt]
      split
      · rename_i hon
        refine ⟨⟨ha, trivial⟩, fun c' i x hx => ?_⟩
        simp only at hx
        split at hx
        · rename_i h
          cases hx
          exact ⟨by rw [h.1]; exact hon, len, by simp [Ledger.next, h]⟩
        · exact old c' i x hx
      · exact ⟨⟨ha, trivial⟩, old⟩
    | true =>
      simp only [crypt]
      refine ⟨?_, old⟩
      split
      · refine ⟨⟨?_, ha.2.1⟩, ha, trivial⟩
        obtain ⟨n, hn, -⟩ := ha.1
        rw [hn]; simp
      · exact ⟨ha, trivial⟩
  | poll c rs =>
    simp only [crypt]
    have left : ∀ (rd' : Reads), (∀ c' i x, rd' c' i = some x → rd c' i = some x ∧ ¬(c' = c ∧ i ∈ rs.map Prod.fst)) →
        RInv on rd' (k.next (.poll c rs)) := by
      intro rd' h c' i x hx
      obtain ⟨h1, h2⟩ := h c' i x hx
      obtain ⟨ho, l, hl⟩ := hr c' i x h1
      exact ⟨ho, l, by simp only [Ledger.next]; rw [if_neg h2]; exact hl⟩
    split
    · refine ⟨⟨trivial, touch_fine fun e he => ?_⟩, ?_⟩
      · obtain ⟨b, id, ok, rfl, hm, hb⟩ := cryptPoll_touch _ _ _ e he
        obtain ⟨-, l, hl⟩ := hr c id b hb
        refine ⟨b, rfl, ?_, fun c' i l' hi => ?_⟩
        · obtain ⟨n, hn, -⟩ := hs.size c id b l hl
          rw [show (k.next (.poll c rs)).size = k.size from rfl, hn]; simp
        · obtain ⟨rfl, rfl⟩ := hs.once _ _ _ _ _ _ _ hl (poll_some hi)
          simp only [Ledger.next] at hi
          rw [if_pos ⟨trivial, mem_fst hm⟩] at hi
          cases hi
      · rw [cryptPoll_rd]
        refine left _ fun c' i x hx => ?_
        split at hx
        · cases hx
        · exact ⟨hx, by assumption⟩
    · rename_i hon
      refine ⟨⟨trivial, trivial⟩, left _ fun c' i x hx => ⟨hx, ?_⟩⟩
      rintro ⟨rfl, -⟩
      exact hon (hr c' i x hx).1

theorem crypts_run (on : Nat → Bool) (rd : Reads) (k : Ledger) (es : List Ev) : run k (crypts on rd es) = run k es := by
  induction es generalizing rd k with
  | nil => rfl
  | cons e es ih => rw [crypts, run_append, crypt_run, ih, run_cons]

theorem crypts_law (on : Nat → Bool) (rd : Reads) (k : Ledger) (es : List Ev) : Law k (crypts on rd es) ↔ Law k es := by
  induction es generalizing rd k with
  | nil => rfl
  | cons e es ih => rw [crypts, law_append, crypt_run, crypt_law, ih, law_cons]

theorem crypts_fine {on : Nat → Bool} {rd : Reads} {k : Ledger} {es : List Ev} (hs : Sound k) (hr : RInv on rd k) (hf : Fine k es) :
    Fine k (crypts on rd es) := by
  induction es generalizing rd k with
  | nil => trivial
  | cons e es ih =>
    obtain ⟨h1, h2⟩ := crypt_fine (on := on) hs hr hf.1
    rw [crypts, fine_append, crypt_run]
    exact ⟨h1, ih (hs.next hf.1) h2 hf.2⟩

def cryptState (on : Nat → Bool) : Reads → List Ev → Reads
  | rd, [] => rd
  | rd, e :: es => cryptState on (crypt on rd e).1 es

theorem crypts_append (on : Nat → Bool) (rd : Reads) (a b : List Ev) :
    crypts on rd (a ++ b) = crypts on rd a ++ crypts on (cryptState on rd a) b := by
  induction a generalizing rd with
  | nil => rfl
  | cons e a ih => simp [crypts, cryptState, ih]

theorem crypts_prefix {on : Nat → Bool} {rd : Reads} {es p : List Ev} (h : p <+: crypts on rd es) :
    p = [] ∨ ∃ a e b q, es = a ++ e :: b ∧ q <+: (crypt on (cryptState on rd a) e).2 ∧ q ≠ [] ∧ p = crypts on rd a ++ q := by
  induction es generalizing rd p with
  | nil => left; simpa [crypts] using h
  | cons e es ih =>
    rw [crypts] at h
    rcases prefix_append h with h | ⟨q, hq, rfl⟩
    · by_cases hp : p = []
      · exact .inl hp
      · exact .inr ⟨[], e, es, p, rfl, h, hp, rfl⟩
    · rcases ih hq with rfl | ⟨a, e', b, r, rfl, hr, hne, rfl⟩
      · by_cases hp : (crypt on rd e).2 = []
        · left; simp [hp]
        · exact .inr ⟨[], e, es, (crypt on rd e).2, rfl, List.prefix_refl _, hp, by simp [crypts]⟩
      · exact .inr ⟨e :: a, e', b, r, rfl, hr, hne, by simp [crypts]⟩

/-- A poll is the first thing an encrypting channel does when it is polled. -/
theorem crypt_head (on : Nat → Bool) (rd : Reads) (e : Ev) (he : e.isPoll = true) : ∃ es, (crypt on rd e).2 = e :: es := by
  cases e <;> first | cases he | skip
  simp only [crypt]
  split
  · exact ⟨_, rfl⟩
  · exact ⟨_, rfl⟩

theorem crypt_safe {P : List Ev → Prop} (h : Safe P) (on : Nat → Bool) : Safe (viaCrypt on P) where
  cut := fun a b ⟨us, hu, hp⟩ => ⟨us, hu, (List.prefix_append a b).trans hp⟩
  keeps := by
    rintro tr ⟨us, hu, hp⟩ ha
    rw [keeps_iff]; rw [answers_iff] at ha
    rcases crypts_prefix hp with rfl | ⟨a, e, b, q, rfl, hq, hne, rfl⟩
    · trivial
    · have hl : Law .empty (a ++ [e]) := by
        rw [law_append, crypts_law] at ha
        rw [law_append]
        refine ⟨ha.1, ?_, trivial⟩
        cases he : e.isPoll with
        | false => exact (law_of_noPolls (es := [e]) (by simpa using he)).1
        | true =>
          obtain ⟨es, hes⟩ := crypt_head on (cryptState on (fun _ _ => none) a) e he
          rw [hes] at hq
          cases q with
          | nil => exact absurd rfl hne
          | cons x q =>
            have := (List.cons_prefix_cons.mp hq).1
            subst this
            have := ha.2.1
            rwa [crypts_run] at this
      have hk := h.keeps (a ++ [e]) (h.cut (a ++ [e]) b (by simpa using hu)) ((answers_iff _).mpr hl)
      have hf := crypts_fine (on := on) (rd := fun _ _ => none) Sound.empty (fun c id b hb => by cases hb) ((keeps_iff _).mp hk)
      rw [crypts_append] at hf
      refine fine_prefix ?_ hf
      rw [List.prefix_append_right_inj]
      simpa [crypts] using hq

/-! ## The lazy channel -/

def waiting (z : Lazy) (i : Nat) : Nat := (z.queue.map RW.id).count i

structure LInv (z : Lazy) (u l : Ledger) : Prop where
  size : l.size = u.size
  tok : ∀ i, one (l.lent 0 i) + one (l.lent 1 i) + waiting z i + cnt z.fin i = one (u.lent 0 i)
  lower : ∀ c i m, l.lent c i = some m → (c = 0 ∨ c = 1) ∧ u.lent 0 i = some m
  queue : ∀ r ∈ z.queue, u.lent 0 r.id = some (some (r.buf, r.len))

theorem LInv.quiet {z : Lazy} {u l : Ledger} (h : LInv z u l) {b : Nat} (hb : u.quiet b) : l.quiet b :=
  fun c i len hl => hb 0 i len (h.lower c i _ hl).2

theorem LInv.none {z : Lazy} {u l : Ledger} (h : LInv z u l) {i : Nat} (hi : u.lent 0 i = none) :
    l.lent 0 i = none ∧ l.lent 1 i = none ∧ waiting z i = 0 ∧ cnt z.fin i = 0 := by
  have := h.tok i
  rw [hi] at this
  simp only [one_none] at this
  exact ⟨one_eq.mp (by omega), one_eq.mp (by omega), by omega, by omega⟩

/-- A request of the queue goes to the base channel, or is reported as failed. -/
theorem process_inv (l : List (RW × Bool)) (rest : List RW) (fin : List (Nat × Bool)) {u k : Ledger} (hs : Sound u)
    (h : LInv ⟨l.map Prod.fst ++ rest, fin⟩ u k) :
    Fine k (process l).1 ∧ LInv ⟨rest, fin ++ (process l).2⟩ u (run k (process l).1) := by
  induction l generalizing fin k with
  | nil => simpa [process] using h
  | cons p l ih =>
    obtain ⟨r, go⟩ := p
    have hr := h.queue r (by simp)
    have ht := h.tok r.id
    have hw : waiting ⟨((r, go) :: l).map Prod.fst ++ rest, fin⟩ r.id = waiting ⟨l.map Prod.fst ++ rest, fin⟩ r.id + 1 := by
      simp [waiting, List.count_cons]
    have hw' : ∀ i, i ≠ r.id → waiting ⟨((r, go) :: l).map Prod.fst ++ rest, fin⟩ i = waiting ⟨l.map Prod.fst ++ rest, fin⟩ i := by
      intro i hi; simp [waiting, List.count_cons, Ne.symm hi]
    rw [hw, hr] at ht
    simp only [one_some] at ht
    have h0 : k.lent 0 r.id = none := one_eq.mp (by omega)
    have h1 : k.lent 1 r.id = none := one_eq.mp (by omega)
    cases go with
    | true =>
      have h' : LInv ⟨l.map Prod.fst ++ rest, fin⟩ u (k.next (.add 0 r.id r.w r.buf r.len)) := by
        refine ⟨h.size, fun i => ?_, fun c i m hm => ?_, fun x hx => h.queue x (by simp only [List.map_cons, List.cons_append, List.mem_cons]; exact .inr hx)⟩
        · by_cases hi : i = r.id
          · subst hi
            rw [hr]
            simp only [Ledger.next, h1] at *
            simp at *; omega
          · have := h.tok i
            rw [hw' i hi] at this
            simpa [Ledger.next, hi] using this
        · simp only [Ledger.next] at hm
          split at hm
          · rename_i hc
            obtain ⟨rfl, rfl⟩ := hc
            cases hm
            exact ⟨.inl rfl, hr⟩
          · exact h.lower c i m hm
      obtain ⟨f1, f2⟩ := ih fin h'
      refine ⟨⟨⟨?_, ?_, h0⟩, f1⟩, f2⟩
      · rw [h.size]; exact hs.size 0 r.id r.buf r.len hr
      · intro c i len hl
        obtain ⟨h2, h3⟩ := h.lower c i _ hl
        obtain ⟨-, rfl⟩ := hs.once _ _ _ _ _ _ _ h3 hr
        rcases h2 with rfl | rfl
        · rw [h0] at hl; cases hl
        · rw [h1] at hl; cases hl
    | false =>
      have h' : LInv ⟨l.map Prod.fst ++ rest, fin ++ [(r.id, false)]⟩ u k := by
        refine ⟨h.size, fun i => ?_, h.lower, fun x hx => h.queue x (by simp only [List.map_cons, List.cons_append, List.mem_cons]; exact .inr hx)⟩
        simp only [cnt_append, cnt_cons, cnt_nil]
        by_cases hi : i = r.id
        · subst hi
          rw [hr]
          have : waiting ⟨l.map Prod.fst ++ rest, fin ++ [(r.id, false)]⟩ r.id = waiting ⟨l.map Prod.fst ++ rest, fin⟩ r.id := rfl
          rw [this]
          simp at *; omega
        · have := h.tok i
          rw [hw' i hi] at this
          simp only [Ne.symm hi, if_false]
          exact this
      obtain ⟨f1, f2⟩ := ih _ h'
      refine ⟨f1, ?_⟩
      simpa [process, List.append_assoc] using f2

theorem process_noPoll (l : List (RW × Bool)) : ∀ e ∈ (process l).1, e.isPoll = false := by
  induction l with
  | nil => simp [process]
  | cons p l ih =>
    obtain ⟨r, go⟩ := p
    cases go with
    | true =>
      intro e he
      simp only [process, List.mem_cons] at he
      rcases he with rfl | he
      · rfl
      · exact ih e he
    | false => exact ih

theorem lazy_step {z z' : Lazy} {u k : Ledger} {e : Ev} {es : List Ev} (hs : Sound u) (h : LInv z u k) (st : Lazy.Step false z e es z')
    (ha : u.allows e) : (∀ p, p <+: es → Fine k p) ∧ (Law k es → u.law e ∧ LInv z' (u.next e) (run k es)) := by
  have whole : Fine k es → ∀ p, p <+: es → Fine k p := fun hf p hp => fine_prefix hp hf
  cases st with
  | base id w b len =>
    obtain ⟨⟨n, hn, hl⟩, hq, hi⟩ := ha
    obtain ⟨h0, h1, hw, hf⟩ := h.none hi
    refine ⟨whole ⟨⟨⟨n, by rw [h.size]; exact hn, hl⟩, h.quiet hq, h0⟩, trivial⟩, fun _ => ⟨trivial, h.size, fun i => ?_, fun c i m hm => ?_, fun x hx => ?_⟩⟩
    · by_cases he : i = id
      · subst he; simp [Ledger.next, h1, hw, hf, one]
      · simpa [Ledger.next, he] using h.tok i
    · simp only [run_cons, run_nil, Ledger.next] at hm ⊢
      split at hm
      · rename_i hc; rw [hc.1, hc.2]; cases hm; exact ⟨.inl rfl, by simp⟩
      · obtain ⟨h2, h3⟩ := h.lower c i m hm
        refine ⟨h2, ?_⟩
        rw [if_neg]
        · exact h3
        · rintro ⟨-, rfl⟩; rw [hi] at h3; cases h3
    · have := h.queue x hx
      simp only [Ledger.next]
      rw [if_neg]
      · exact this
      · rintro ⟨-, he⟩; rw [he, hi] at this; cases this
  | image id b len =>
    obtain ⟨⟨n, hn, hl⟩, hq, hi⟩ := ha
    obtain ⟨h0, h1, hw, hf⟩ := h.none hi
    refine ⟨whole ⟨⟨⟨n, by rw [h.size]; exact hn, hl⟩, h.quiet hq, h1⟩, trivial⟩, fun _ => ⟨trivial, h.size, fun i => ?_, fun c i m hm => ?_, fun x hx => ?_⟩⟩
    · by_cases he : i = id
      · subst he; simp [Ledger.next, h0, hw, hf, one]
      · simpa [Ledger.next, he] using h.tok i
    · simp only [run_cons, run_nil, Ledger.next] at hm ⊢
      split at hm
      · rename_i hc; rw [hc.1, hc.2]; cases hm; exact ⟨.inr rfl, by simp⟩
      · obtain ⟨h2, h3⟩ := h.lower c i m hm
        refine ⟨h2, ?_⟩
        rw [if_neg]
        · exact h3
        · rintro ⟨-, rfl⟩; rw [hi] at h3; cases h3
    · have := h.queue x hx
      simp only [Ledger.next]
      rw [if_neg]
      · exact this
      · rintro ⟨-, he⟩; rw [he, hi] at this; cases this
  | failed id w b len =>
    obtain ⟨-, hq, hi⟩ := ha
    obtain ⟨h0, h1, hw, hf⟩ := h.none hi
    refine ⟨whole trivial, fun _ => ⟨trivial, h.size, fun i => ?_, fun c i m hm => ?_, fun x hx => ?_⟩⟩
    · simp only [cnt_append, cnt_cons, cnt_nil]
      by_cases he : i = id
      · subst he
        have : waiting { z with fin := z.fin ++ [(i, false)] } i = waiting z i := rfl
        simp [Ledger.next, h0, h1, hf, one, this, hw]
      · simp only [Ne.symm he, if_false]
        simpa [Ledger.next, he, waiting] using h.tok i
    · obtain ⟨h2, h3⟩ := h.lower c i m hm
      refine ⟨h2, ?_⟩
      simp only [Ledger.next]
      rw [if_neg]
      · exact h3
      · rintro ⟨-, rfl⟩; rw [hi] at h3; cases h3
    · have := h.queue x hx
      simp only [Ledger.next]
      rw [if_neg]
      · exact this
      · rintro ⟨-, he⟩; rw [he, hi] at this; cases this
  | queued id w b len =>
    obtain ⟨-, hq, hi⟩ := ha
    obtain ⟨h0, h1, hw, hf⟩ := h.none hi
    refine ⟨whole trivial, fun _ => ⟨trivial, h.size, fun i => ?_, fun c i m hm => ?_, fun x hx => ?_⟩⟩
    · have : waiting { z with queue := z.queue ++ [⟨id, w, b, len⟩] } i = waiting z i + if id = i then 1 else 0 := by
        simp [waiting, List.count_append, List.count_singleton]
      rw [this]
      by_cases he : i = id
      · subst he
        simp [Ledger.next, h0, h1, hf, one, hw]
      · simp only [Ne.symm he, if_false]
        simpa [Ledger.next, he] using h.tok i
    · obtain ⟨h2, h3⟩ := h.lower c i m hm
      refine ⟨h2, ?_⟩
      simp only [Ledger.next]
      rw [if_neg]
      · exact h3
      · rintro ⟨-, rfl⟩; rw [hi] at h3; cases h3
    · simp only [List.mem_append, List.mem_singleton] at hx
      rcases hx with hx | rfl
      · have := h.queue x hx
        simp only [Ledger.next]
        rw [if_neg]
        · exact this
        · rintro ⟨-, he⟩; rw [he, hi] at this; cases this
      · simp [Ledger.next]
  | flush id =>
    have hi : u.lent 0 id = none := ha
    obtain ⟨h0, h1, hw, hf⟩ := h.none hi
    refine ⟨whole ⟨h0, trivial⟩, fun _ => ⟨trivial, h.size, fun i => ?_, fun c i m hm => ?_, fun x hx => ?_⟩⟩
    · by_cases he : i = id
      · subst he; simp [Ledger.next, h1, hw, hf, one]
      · simpa [Ledger.next, he] using h.tok i
    · simp only [run_cons, run_nil, Ledger.next] at hm ⊢
      split at hm
      · rename_i hc; rw [hc.1, hc.2]; cases hm; exact ⟨.inl rfl, by simp⟩
      · obtain ⟨h2, h3⟩ := h.lower c i m hm
        refine ⟨h2, ?_⟩
        rw [if_neg]
        · exact h3
        · rintro ⟨-, rfl⟩; rw [hi] at h3; cases h3
    · have := h.queue x hx
      simp only [Ledger.next]
      rw [if_neg]
      · exact this
      · rintro ⟨-, he⟩; rw [he, hi] at this; cases this
  | poll l rest rb ri hz =>
    obtain ⟨zq, zf⟩ := z
    simp only at hz ha ⊢
    subst hz
    obtain ⟨f1, f2⟩ := process_inv l rest zf hs h
    constructor
    · intro p hp
      rcases prefix_append hp with hp | ⟨q, hq, rfl⟩
      · exact fine_prefix hp f1
      · rw [fine_append]
        refine ⟨f1, fine_prefix hq (fine_of_polls ?_)⟩
        simp [Ev.isPoll]
    · intro hl
      rw [law_append] at hl
      obtain ⟨-, l1, l2, -⟩ := hl
      rw [run_append]
      generalize run k (process l).1 = k1 at f2 l1 l2
      generalize hfin : zf ++ (process l).2 = fin at f2
      have t0 := poll_one l1
      have t1 := poll_one l2
      have e1 : ∀ i, ((k1.next (.poll 0 rb)).next (.poll 1 ri)).lent 0 i = (k1.next (.poll 0 rb)).lent 0 i := fun i => poll_other (by decide) i
      have e2 : ∀ i, (k1.next (.poll 0 rb)).lent 1 i = k1.lent 1 i := fun i => poll_other (by decide) i
      have tot : ∀ i, one (((k1.next (.poll 0 rb)).next (.poll 1 ri)).lent 0 i) + one (((k1.next (.poll 0 rb)).next (.poll 1 ri)).lent 1 i) +
          waiting ⟨rest, []⟩ i + cnt (fin ++ rb ++ ri) i = one (u.lent 0 i) := by
        intro i
        have h1 := f2.tok i
        have h2 := t0 i
        have h3 := t1 i
        have h4 : waiting ⟨rest, fin⟩ i = waiting ⟨rest, []⟩ i := rfl
        rw [e2] at h3
        rw [e1, cnt_append, cnt_append]
        simp only at h1
        omega
      have mem : ∀ i, i ∈ (fin ++ rb ++ ri).map Prod.fst ↔ 0 < cnt (fin ++ rb ++ ri) i := fun i => List.count_pos_iff.symm
      refine ⟨⟨List.nodup_iff_count.mpr fun i => ?_, fun r hr => ?_⟩, f2.size, fun i => ?_, fun c i m hm => ?_, fun x hx => ?_⟩
      · have := tot i
        have := one_le (u.lent 0 i)
        simp only [cnt] at *; omega
      · rw [one_pos]
        have := tot r.1
        have := (mem r.1).mp (List.mem_map_of_mem hr)
        have := one_le (u.lent 0 r.1)
        omega
      · have h1 := tot i
        simp only [run_cons, run_nil, cnt_nil]
        by_cases hi : i ∈ (fin ++ rb ++ ri).map Prod.fst
        · have h2 := (mem i).mp hi
          have h3 := one_le (u.lent 0 i)
          have h4 : (u.next (.poll 0 (fin ++ rb ++ ri))).lent 0 i = Option.none := by
            simp only [Ledger.next]; rw [if_pos ⟨trivial, hi⟩]
          rw [h4]; simp only [one_none]; omega
        · have h2 : cnt (fin ++ rb ++ ri) i = 0 := by
            have := mt (mem i).mpr hi; omega
          have h4 : (u.next (.poll 0 (fin ++ rb ++ ri))).lent 0 i = u.lent 0 i := by
            simp only [Ledger.next]; rw [if_neg fun h => hi h.2]
          rw [h4]; omega
      · have hm' := poll_some (poll_some hm)
        obtain ⟨h2, h3⟩ := f2.lower c i m hm'
        refine ⟨h2, ?_⟩
        have h1 := tot i
        have h4 := one_le (u.lent 0 i)
        have h5 : 1 ≤ one (((k1.next (.poll 0 rb)).next (.poll 1 ri)).lent 0 i) + one (((k1.next (.poll 0 rb)).next (.poll 1 ri)).lent 1 i) := by
          have hm2 : ((k1.next (.poll 0 rb)).next (.poll 1 ri)).lent c i = some m := hm
          rcases h2 with rfl | rfl
          · rw [hm2]; simp
          · rw [hm2]; simp
        simp only [Ledger.next]
        rw [if_neg]
        · exact h3
        · rintro ⟨-, hi⟩
          have := (mem i).mp hi
          omega
      · have h3 := f2.queue x hx
        have h1 := tot x.id
        have h4 := one_le (u.lent 0 x.id)
        have h5 : 0 < waiting ⟨rest, []⟩ x.id := List.count_pos_iff.mpr (List.mem_map_of_mem hx)
        simp only [Ledger.next]
        rw [if_neg]
        · exact h3
        · rintro ⟨-, hi⟩
          have := (mem x.id).mp hi
          omega
  | pollRefused l rest rb ri hr => cases hr
  | alloc b n =>
    have ha' : u.size b = Option.none := ha
    refine ⟨whole ⟨by rw [← h.size] at ha'; exact ha', trivial⟩, fun _ => ⟨trivial, ?_, h.tok, h.lower, h.queue⟩⟩
    simp [Ledger.next, h.size]
  | free b =>
    refine ⟨whole ⟨⟨by rw [h.size]; exact ha.1, h.quiet ha.2⟩, trivial⟩, fun _ => ⟨trivial, ?_, h.tok, h.lower, h.queue⟩⟩
    simp [Ledger.next, h.size]
  | touch b =>
    exact ⟨whole ⟨⟨by rw [h.size]; exact ha.1, h.quiet ha.2⟩, trivial⟩, fun _ => ⟨trivial, h.size, h.tok, h.lower, h.queue⟩⟩

theorem lazy_run {P : List Ev → Prop} (hP : Safe P) {us ls : List Ev} {z : Lazy} (h : Lazy.Run false us ls z) (hu : P us)
    (ha : Answers ls) : Answers us ∧ Keeps us ∧ Keeps ls ∧ LInv z (ledger us) (ledger ls) := by
  induction h with
  | nil => exact ⟨(answers_iff _).mpr trivial, (keeps_iff _).mpr trivial, (keeps_iff _).mpr trivial,
      rfl, fun i => rfl, fun c i m hm => (by cases hm), fun r hr => (by cases hr)⟩
  | snoc hr st ih =>
    rename_i us ls es e z z'
    rw [answers_iff, law_append] at ha
    obtain ⟨i1, i2, i3, i4⟩ := ih (hP.cut _ _ hu) ((answers_iff _).mpr ha.1)
    have hal : (ledger us).allows e := by
      cases he : e.isPoll with
      | true => cases e <;> first | trivial | cases he
      | false =>
        have hl : Law .empty (us ++ [e]) := by
          rw [law_append]
          exact ⟨(answers_iff _).mp i1, law_of_noPolls (by simpa using he)⟩
        have := (keeps_iff _).mp (hP.keeps _ hu ((answers_iff _).mpr hl))
        rw [fine_append] at this
        exact this.2.1
    obtain ⟨s1, s2⟩ := lazy_step (sound_of_keeps i2) i4 st hal
    obtain ⟨s3, s4⟩ := s2 ha.2
    refine ⟨?_, ?_, ?_, ?_⟩
    · rw [answers_iff, law_append]; exact ⟨(answers_iff _).mp i1, s3, trivial⟩
    · rw [keeps_iff, fine_append]; exact ⟨(keeps_iff _).mp i2, hal, trivial⟩
    · rw [keeps_iff, fine_append]; exact ⟨(keeps_iff _).mp i3, s1 _ (List.prefix_refl _)⟩
    · rw [ledger_eq, ledger_eq, run_append, run_append]; exact s4

theorem lazy_safe {P : List Ev → Prop} (hP : Safe P) : Safe (viaLazy false P) where
  cut := fun a b ⟨us, ls, z, hu, hr, hp⟩ => ⟨us, ls, z, hu, hr, (List.prefix_append a b).trans hp⟩
  keeps := by
    rintro tr ⟨us, ls, z, hu, hr, hp⟩ ha
    rw [keeps_iff]
    induction hr generalizing tr with
    | nil => rw [List.prefix_nil.mp hp]; trivial
    | snoc hr st ih =>
      rename_i us ls es e z z'
      rcases prefix_append hp with hp | ⟨q, hq, rfl⟩
      · exact ih _ (hP.cut _ _ hu) hp ha
      · rw [answers_iff, law_append] at ha
        obtain ⟨i1, i2, i3, i4⟩ := lazy_run hP hr (hP.cut _ _ hu) ((answers_iff _).mpr ha.1)
        have hal : (ledger us).allows e := by
          cases he : e.isPoll with
          | true => cases e <;> first | trivial | cases he
          | false =>
            have hl : Law .empty (us ++ [e]) := by
              rw [law_append]
              exact ⟨(answers_iff _).mp i1, law_of_noPolls (by simpa using he)⟩
            have := (keeps_iff _).mp (hP.keeps _ hu ((answers_iff _).mpr hl))
            rw [fine_append] at this
            exact this.2.1
        rw [fine_append]
        exact ⟨(keeps_iff _).mp i3, (lazy_step (sound_of_keeps i2) i4 st hal).1 q hq⟩

end Verif.Lend
