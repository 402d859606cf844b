import Verif.Proof.LendFront

/-! # Proofs about memory lent to the kernel: the users with a pool of buffers -/

namespace Verif.Lend

/-- One if a request is unanswered. -/
def one {α : Type} : Option α → Nat
  | none => 0
  | some _ => 1

@[simp] theorem one_none {α : Type} : one (none : Option α) = 0 := rfl
@[simp] theorem one_some {α : Type} (a : α) : one (some a) = 1 := rfl
theorem one_eq {α : Type} {o : Option α} : one o = 0 ↔ o = none := by cases o <;> simp [one]
theorem one_le {α : Type} (o : Option α) : one o ≤ 1 := by cases o <;> simp [one]
theorem one_pos {α : Type} {o : Option α} : o ≠ none ↔ one o = 1 := by cases o <;> simp [one]

/-- How often `i` is among answers still to be handled. -/
def cnt (l : List (Nat × Bool)) (i : Nat) : Nat := (l.map Prod.fst).count i

theorem cnt_cons (p : Nat × Bool) (l : List (Nat × Bool)) (i : Nat) : cnt (p :: l) i = cnt l i + if p.1 = i then 1 else 0 := by
  simp [cnt, List.count_cons]

theorem cnt_append (a b : List (Nat × Bool)) (i : Nat) : cnt (a ++ b) i = cnt a i + cnt b i := by
  simp [cnt, List.map_append, List.count_append]

@[simp] theorem cnt_nil (i : Nat) : cnt [] i = 0 := rfl

theorem poll_one {k : Ledger} {c : Nat} {rs : List (Nat × Bool)} (hl : k.law (.poll c rs)) (i : Nat) :
    cnt rs i + one ((k.next (.poll c rs)).lent c i) = one (k.lent c i) := by
  obtain ⟨h1, h2⟩ := hl
  have hc := List.nodup_iff_count.mp h1 i
  simp only [Ledger.next]
  by_cases hi : i ∈ rs.map Prod.fst
  · rw [if_pos ⟨trivial, hi⟩]
    have := List.count_pos_iff.mpr hi
    obtain ⟨r, hr, rfl⟩ := List.mem_map.mp hi
    have h3 := one_pos.mp (h2 r hr)
    simp only [cnt, one] at *; omega
  · rw [if_neg (fun h => hi h.2)]
    simp [cnt, List.count_eq_zero.mpr hi]

theorem poll_other {k : Ledger} {c c' : Nat} {rs : List (Nat × Bool)} (h : c' ≠ c) (i : Nat) :
    (k.next (.poll c rs)).lent c' i = k.lent c' i := by
  simp [Ledger.next, h]

theorem poll_some {k : Ledger} {c c' : Nat} {rs : List (Nat × Bool)} {i : Nat} {m : Option (Nat × Nat)}
    (h : (k.next (.poll c rs)).lent c' i = some m) : k.lent c' i = some m := by
  simp only [Ledger.next] at h
  split at h
  · cases h
  · exact h

/-! ## Copying stripes -/

def occ (f : Fetch) (k : Ledger) (i : Nat) : Nat :=
  f.asked.count i + cnt f.doneSrc i + cnt f.doneTgt i + one (k.lent 1 i) + one (k.lent 2 i)

def Busy (f : Fetch) (i : Nat) : Prop := f.st i = some .fetching ∨ f.st i = some .flushing

structure PInv (ss : Nat) (f : Fetch) (k : Ledger) : Prop where
  size : ∀ b, b < 16 → k.size b = some (ss * 512)
  freeNodup : f.free.Nodup
  freeLt : ∀ b ∈ f.free, b < 16
  gotLt : ∀ i b, f.got i = some b → b < 16 ∧ b ∉ f.free
  inj : ∀ i j b, f.got i = some b → f.got j = some b → i = j
  qNodup : f.queue.Nodup
  queued : ∀ i ∈ f.queue, f.st i = some .queued
  one : ∀ i, occ f k i ≤ 1
  busy : ∀ i, occ f k i ≠ 0 → f.got i ≠ none ∧ Busy f i
  lent : ∀ c i m, k.lent c i = some m → (c = 1 ∨ c = 2) ∧ ∀ b len, m = some (b, len) → f.got i = some b

theorem PInv.idle {ss : Nat} {f : Fetch} {k : Ledger} (h : PInv ss f k) {i : Nat} (hi : occ f k i = 0) (c : Nat) : k.lent c i = none := by
  cases hl : k.lent c i with
  | none => rfl
  | some m =>
    rcases (h.lent c i m hl).1 with rfl | rfl <;> simp [occ, hl, Lend.one] at hi

theorem PInv.quiet {ss : Nat} {f : Fetch} {k : Ledger} (h : PInv ss f k) {i b : Nat} (hi : occ f k i = 0) (hg : f.got i = some b) :
    k.quiet b := by
  intro c j len hl
  have := (h.lent c j _ hl).2 b len rfl
  have := h.inj _ _ _ this hg
  subst this
  rw [h.idle hi] at hl; cases hl

theorem PInv.notQueued {ss : Nat} {f : Fetch} {k : Ledger} (h : PInv ss f k) {i : Nat} (hi : Busy f i) : i ∉ f.queue := by
  intro hq
  have := h.queued i hq
  rcases hi with hi | hi <;> rw [this] at hi <;> cases hi

theorem PInv.of_occ {ss : Nat} {f g : Fetch} {k : Ledger} (h : PInv ss f k) (ho : ∀ i, occ g k i ≤ occ f k i) (h1 : g.free = f.free)
    (h2 : g.got = f.got) (h3 : g.queue = f.queue) (h4 : g.st = f.st) : PInv ss g k where
  size := h.size
  freeNodup := by rw [h1]; exact h.freeNodup
  freeLt := by rw [h1]; exact h.freeLt
  gotLt := by rw [h1, h2]; exact h.gotLt
  inj := by rw [h2]; exact h.inj
  qNodup := by rw [h3]; exact h.qNodup
  queued := by rw [h3, h4]; exact h.queued
  one := fun i => Nat.le_trans (ho i) (h.one i)
  busy := fun i hi => by
    have := h.busy i (by have := ho i; omega)
    simpa only [Busy, h2, h4] using this
  lent := by rw [h2]; exact h.lent

theorem PInv.completed {ss : Nat} {f : Fetch} {k : Ledger} (h : PInv ss f k) {i : Nat} (hi : occ f k i = 0) (hq : i ∉ f.queue)
    (ok again : Bool) : PInv ss (f.completed i ok again) k := by
  have hocc : ∀ j, occ (f.completed i ok again) k j = occ f k j := fun _ => rfl
  have hfree : ∀ b, b ∈ (f.completed i ok again).free ↔ b ∈ f.free ∨ f.got i = some b := by
    intro b
    simp only [Fetch.completed]
    cases hg : f.got i with
    | none => simp
    | some x => simp [eq_comm]
  refine ⟨h.size, ?_, ?_, ?_, ?_, ?_, ?_, fun j => (hocc j) ▸ h.one j, ?_, ?_⟩
  · simp only [Fetch.completed]
    cases hg : f.got i with
    | none => exact h.freeNodup
    | some x =>
      simp only
      rw [List.nodup_append]
      refine ⟨h.freeNodup, by simp, fun a ha b hb hab => ?_⟩
      rw [List.mem_singleton] at hb
      rw [hab, hb] at ha
      exact (h.gotLt i x hg).2 ha
  · intro b hb
    rcases (hfree b).mp hb with hb | hb
    · exact h.freeLt b hb
    · exact (h.gotLt i b hb).1
  · intro j b hj
    simp only [Fetch.completed, setFn] at hj
    split at hj
    · cases hj
    rename_i hne
    refine ⟨(h.gotLt j b hj).1, fun hb => ?_⟩
    rcases (hfree b).mp hb with hb | hb
    · exact (h.gotLt j b hj).2 hb
    · exact hne (h.inj _ _ _ hj hb)
  · intro a b x ha hb
    simp only [Fetch.completed, setFn] at ha hb
    split at ha
    · cases ha
    split at hb
    · cases hb
    exact h.inj _ _ _ ha hb
  · simp only [Fetch.completed]
    split
    · rw [List.nodup_append]
      refine ⟨h.qNodup, by simp, fun a ha b hb hab => ?_⟩
      rw [List.mem_singleton] at hb
      rw [hab, hb] at ha
      exact hq ha
    · exact h.qNodup
  · intro j hj
    simp only [Fetch.completed] at hj ⊢
    have hold : j ∈ f.queue → setFn f.st i (if ok = true then some FState.fetched else if again = true then some .queued else none) j = some .queued := by
      intro hj
      have : j ≠ i := fun he => hq (he ▸ hj)
      simp [setFn, this, h.queued j hj]
    split at hj
    · rename_i hc
      rw [List.mem_append, List.mem_singleton] at hj
      rcases hj with hj | rfl
      · exact hold hj
      · simp at hc; simp [setFn, hc.1, hc.2]
    · exact hold hj
  · intro j hj
    rw [hocc] at hj
    obtain ⟨h1, h2⟩ := h.busy j hj
    have : j ≠ i := by rintro rfl; exact hj hi
    simp only [Busy, Fetch.completed, setFn, if_neg this]
    exact ⟨h1, h2⟩
  · intro c j m hm
    obtain ⟨h1, h2⟩ := h.lent c j m hm
    have : j ≠ i := by rintro rfl; rw [h.idle hi] at hm; cases hm
    refine ⟨h1, fun b len he => ?_⟩
    simp only [Fetch.completed, setFn, if_neg this]
    exact h2 b len he

theorem PInv.take {ss : Nat} {f : Fetch} {k : Ledger} (h : PInv ss f k) {i b : Nat} {q fr : List Nat} (hq : f.queue = i :: q)
    (hf : f.free = b :: fr) :
    occ f k i = 0 ∧ i ∉ q ∧ PInv ss { f with queue := q, free := fr, got := setFn f.got i (some b) } k := by
  have hst := h.queued i (by simp [hq])
  have hi : occ f k i = 0 := by
    refine Decidable.byContradiction fun hne => ?_
    exact h.notQueued (h.busy i hne).2 (by simp [hq])
  have hn := h.qNodup; rw [hq, List.nodup_cons] at hn
  have hfn := h.freeNodup; rw [hf, List.nodup_cons] at hfn
  refine ⟨hi, hn.1, ⟨h.size, hfn.2, fun x hx => h.freeLt x (by simp [hf, hx]), ?_, ?_, hn.2, fun j hj => h.queued j (by simp [hq, hj]), h.one, ?_, ?_⟩⟩
  · intro j x hj
    simp only [setFn] at hj
    split at hj
    · cases hj; exact ⟨h.freeLt b (by simp [hf]), hfn.1⟩
    · have := h.gotLt j x hj
      exact ⟨this.1, fun hx => this.2 (by simp [hf, hx])⟩
  · intro x y z hx hy
    simp only [setFn] at hx hy
    split at hx <;> split at hy
    · rename_i a c; exact a.trans c.symm
    · cases hx; exact absurd (by simp [hf]) (h.gotLt y b hy).2
    · cases hy; exact absurd (by simp [hf]) (h.gotLt x b hx).2
    · exact h.inj _ _ _ hx hy
  · intro j hj
    have hne : j ≠ i := by rintro rfl; exact hj hi
    have := h.busy j hj
    simpa [Busy, setFn, hne] using this
  · intro c j m hm
    obtain ⟨h1, h2⟩ := h.lent c j m hm
    have hne : j ≠ i := by rintro rfl; rw [h.idle hi] at hm; cases hm
    exact ⟨h1, fun x len he => by simp only [setFn, if_neg hne]; exact h2 x len he⟩

theorem PInv.setSt {ss : Nat} {f : Fetch} {k : Ledger} (h : PInv ss f k) {i : Nat} (hq : i ∉ f.queue) {v : FState}
    (hv : v = .fetching ∨ v = .flushing) : PInv ss { f with st := setFn f.st i (some v) } k := by
  refine ⟨h.size, h.freeNodup, h.freeLt, h.gotLt, h.inj, h.qNodup, ?_, h.one, ?_, h.lent⟩
  · intro j hj
    have : j ≠ i := fun he => hq (he ▸ hj)
    simp [setFn, this, h.queued j hj]
  · intro j hj
    obtain ⟨h1, h2⟩ := h.busy j hj
    refine ⟨h1, ?_⟩
    by_cases he : j = i
    · rcases hv with rfl | rfl
      · left; simp [setFn, he]
      · right; simp [setFn, he]
    · simpa [Busy, setFn, he] using h2

theorem PInv.put {ss : Nat} {f : Fetch} {k : Ledger} (h : PInv ss f k) {i : Nat} (hi : occ f k i = 0) (hg : f.got i ≠ none) (hb : Busy f i)
    {c : Nat} (hc : c = 1 ∨ c = 2) {e : Ev} (m : Option (Nat × Nat)) (hm : ∀ b len, m = some (b, len) → f.got i = some b)
    (he : (k.next e).lent = fun c' j => if c' = c ∧ j = i then some m else k.lent c' j) (hz : (k.next e).size = k.size) :
    PInv ss f (k.next e) := by
  have hother : ∀ j, j ≠ i → occ f (k.next e) j = occ f k j := by
    intro j hj; simp [occ, he, hj]
  have hone : occ f (k.next e) i = 1 := by
    have h1 := h.idle hi 1
    have h2 := h.idle hi 2
    simp only [occ, he, h1, h2, Lend.one] at hi ⊢
    rcases hc with rfl | rfl <;> simp [Lend.one] <;> omega
  refine ⟨by rw [hz]; exact h.size, h.freeNodup, h.freeLt, h.gotLt, h.inj, h.qNodup, h.queued, ?_, ?_, ?_⟩
  · intro j
    by_cases hj : j = i
    · rw [hj, hone]; exact Nat.le_refl _
    · rw [hother j hj]; exact h.one j
  · intro j hj'
    by_cases hj : j = i
    · rw [hj]; exact ⟨hg, hb⟩
    · rw [hother j hj] at hj'; exact h.busy j hj'
  · intro c' j m' hl
    rw [he] at hl
    simp only at hl
    split at hl
    · rename_i hx
      obtain ⟨rfl, rfl⟩ := hx
      cases hl
      exact ⟨hc, hm⟩
    · exact h.lent c' j m' hl

theorem fetch_inv {kind : Src} {ss src tgt : Nat} (f : Fetch) (es : List Ev) (f' : Fetch) (k : Ledger) (h : PInv ss f k)
    (st : Fetch.Step false kind ss src tgt f es f') (hl : Law k es) : Fine k es ∧ PInv ss f' (run k es) := by
  have len : ∀ n, sqeLen (min ss n) ≤ ss * 512 := fun n =>
    Nat.le_trans (sqeLen_le _) (Nat.mul_le_mul_right _ (Nat.min_le_left _ _))
  -- an answer is taken from a list
  have src' : ∀ i ok rest, f.doneSrc = (i, ok) :: rest →
      PInv ss { f with doneSrc := rest } k ∧ occ { f with doneSrc := rest } k i = 0 ∧ f.got i ≠ none ∧ Busy f i := by
    intro i ok rest hd
    have h1 := h.one i
    have h2 : occ f k i = occ { f with doneSrc := rest } k i + 1 := by simp only [occ, hd, cnt_cons, if_true]; omega
    refine ⟨h.of_occ (fun j => ?_) rfl rfl rfl rfl, by omega, h.busy i (by omega)⟩
    simp only [occ, hd, cnt_cons]; omega
  have tgt' : ∀ i ok rest, f.doneTgt = (i, ok) :: rest →
      PInv ss { f with doneTgt := rest } k ∧ occ { f with doneTgt := rest } k i = 0 ∧ f.got i ≠ none ∧ Busy f i := by
    intro i ok rest hd
    have h1 := h.one i
    have h2 : occ f k i = occ { f with doneTgt := rest } k i + 1 := by simp only [occ, hd, cnt_cons, if_true]; omega
    refine ⟨h.of_occ (fun j => ?_) rfl rfl rfl rfl, by omega, h.busy i (by omega)⟩
    simp only [occ, hd, cnt_cons]; omega
  cases st with
  | request i hs ht hn =>
    have hq : i ∉ f.queue := fun hq => by rw [h.queued i hq] at hn; cases hn
    refine ⟨trivial, h.size, h.freeNodup, h.freeLt, h.gotLt, h.inj, ?_, ?_, h.one, ?_, h.lent⟩
    · rw [List.nodup_append]
      refine ⟨h.qNodup, by simp, fun a ha b hb hab => ?_⟩
      rw [List.mem_singleton] at hb
      rw [hab, hb] at ha
      exact hq ha
    · intro j hj
      rw [List.mem_append, List.mem_singleton] at hj
      rcases hj with hj | rfl
      · have : j ≠ i := fun he => hq (he ▸ hj)
        simp [setFn, this, h.queued j hj]
      · simp [setFn]
    · intro j hj
      obtain ⟨h1, h2⟩ := h.busy j hj
      have : j ≠ i := by rintro rfl; rcases h2 with h2 | h2 <;> rw [hn] at h2 <;> cases h2
      exact ⟨h1, by simpa [Busy, setFn, this] using h2⟩
  | startRaw i b q fr hs ht hk hq hf hlt =>
    obtain ⟨h1, h2, h3⟩ := h.take hq hf
    have hb := h.freeLt b (by simp [hf])
    have h4 := h3.setSt (i := i) h2 (v := .fetching) (.inl rfl)
    have hquiet : k.quiet b := h3.quiet (i := i) h1 (by simp [setFn])
    refine ⟨⟨⟨⟨ss * 512, h.size b hb, len _⟩, hquiet, h.idle h1 1⟩, trivial⟩, ?_⟩
    exact h4.put (i := i) h1 (by simp [setFn]) (.inl (by simp [setFn])) (c := 1) (.inl rfl)
      (e := .add 1 i false b (sqeLen (min ss (src - i * ss)))) (some (b, sqeLen (min ss (src - i * ss))))
      (fun x l hx => by cases hx; simp [setFn]) rfl rfl
  | startRefused i b q fr again hr => cases hr
  | startCopied i b q fr hs ht hk hq hf =>
    obtain ⟨h1, h2, h3⟩ := h.take hq hf
    have h4 := h3.setSt (i := i) h2 (v := .fetching) (.inl rfl)
    refine ⟨trivial, h4.size, h4.freeNodup, h4.freeLt, h4.gotLt, h4.inj, h4.qNodup, h4.queued, ?_, ?_, h4.lent⟩
    · intro j
      have := h.one j
      by_cases hj : j = i
      · subst hj; simp only [occ, List.count_append, run_nil] at h1 ⊢; simp; omega
      · have : List.count j [i] = 0 := by simp [List.count_singleton, Ne.symm hj]
        simp only [occ, List.count_append, run_nil, this] at *; omega
    · intro j hj'
      by_cases hj : j = i
      · subst hj; exact ⟨by simp [setFn], .inl (by simp [setFn])⟩
      · refine h4.busy j fun h0 => hj' ?_
        have : List.count j [i] = 0 := by simp [List.count_singleton, Ne.symm hj]
        simp only [occ, List.count_append, run_nil, this] at h0 ⊢; omega
  | startFailed i b q fr again hs ht hq hf hk =>
    obtain ⟨h1, h2, h3⟩ := h.take hq hf
    exact ⟨trivial, h3.completed (i := i) h1 h2 false again⟩
  | pollRaw rs hs ht hk =>
    refine ⟨⟨trivial, trivial⟩, ?_⟩
    have hocc : ∀ j, occ { f with doneSrc := rs } (k.next (.poll 1 rs)) j = occ f k j := by
      intro j
      have := poll_one hl.1 j
      simp only [occ, hs, ht, cnt_nil, poll_other (c := 1) (c' := 2) (rs := rs) (by decide)]
      omega
    refine ⟨h.size, h.freeNodup, h.freeLt, h.gotLt, h.inj, h.qNodup, h.queued, fun j => ?_, fun j hj => ?_, fun c j m hm => h.lent c j m (poll_some hm)⟩
    · exact (hocc j) ▸ h.one j
    · exact h.busy j (fun h0 => hj ((hocc j).trans h0))
  | pollCopied i b ok hs ht hk ha hg =>
    have hc := List.count_pos_iff.mpr ha
    have h1 := h.one i
    have hidle : k.lent 1 i = none ∧ k.lent 2 i = none := by
      refine ⟨one_eq.mp ?_, one_eq.mp ?_⟩ <;> simp only [occ] at h1 <;> omega
    have hocc : ∀ j, occ { f with doneSrc := [(i, ok)], asked := f.asked.erase i } k j = occ f k j := by
      intro j
      simp only [occ, hs, cnt_cons, cnt_nil, List.count_erase]
      by_cases hj : i = j
      · subst hj; simp; omega
      · simp [hj]
    have key : PInv ss { f with doneSrc := [(i, ok)], asked := f.asked.erase i } k :=
      h.of_occ (fun j => Nat.le_of_eq (hocc j)) rfl rfl rfl rfl
    cases ok with
    | false => exact ⟨trivial, key⟩
    | true =>
      refine ⟨⟨⟨by rw [h.size b (h.gotLt i b hg).1]; simp, fun c j l hj => ?_⟩, trivial⟩, key⟩
      obtain ⟨h2, h3⟩ := h.lent c j _ hj
      have := h.inj _ _ _ (h3 b l rfl) hg
      subst this
      rcases h2 with rfl | rfl
      · rw [hidle.1] at hj; cases hj
      · rw [hidle.2] at hj; cases hj
  | write i b rest ht hs hg =>
    obtain ⟨h1, h2, h3, h4⟩ := src' i true rest hs
    refine ⟨⟨⟨⟨ss * 512, h.size b (h.gotLt i b hg).1, len _⟩, h1.quiet h2 hg, h1.idle h2 2⟩, trivial⟩, ?_⟩
    exact h1.put (i := i) h2 h3 h4 (c := 2) (.inr rfl) (e := .add 2 i true b (sqeLen (min ss (tgt - i * ss))))
      (some (b, sqeLen (min ss (tgt - i * ss)))) (fun x l hx => by cases hx; exact hg) rfl rfl
  | writeRefused i b rest again hr => cases hr
  | readFailed i b rest again ht hs hg =>
    obtain ⟨h1, h2, h3, h4⟩ := src' i false rest hs
    exact ⟨trivial, h1.completed h2 (h.notQueued h4) false again⟩
  | readUnknown i ok rest ht hs hg => exact ⟨trivial, (src' i ok rest hs).1⟩
  | pollTgt rs hs ht =>
    refine ⟨⟨trivial, trivial⟩, ?_⟩
    have hocc : ∀ j, occ { f with doneTgt := rs } (k.next (.poll 2 rs)) j = occ f k j := by
      intro j
      have := poll_one hl.1 j
      simp only [occ, hs, ht, cnt_nil, poll_other (c := 2) (c' := 1) (rs := rs) (by decide)]
      omega
    refine ⟨h.size, h.freeNodup, h.freeLt, h.gotLt, h.inj, h.qNodup, h.queued, fun j => ?_, fun j hj => ?_, fun c j m hm => h.lent c j m (poll_some hm)⟩
    · exact (hocc j) ▸ h.one j
    · exact h.busy j (fun h0 => hj ((hocc j).trans h0))
  | tgtFailed i rest again ht =>
    obtain ⟨h1, h2, h3, h4⟩ := tgt' i false rest ht
    exact ⟨trivial, h1.completed h2 (h.notQueued h4) false again⟩
  | tgtWritten i rest ht hst =>
    obtain ⟨h1, h2, h3, h4⟩ := tgt' i true rest ht
    have h5 := h1.setSt (i := i) (h.notQueued h4) (v := .flushing) (.inr rfl)
    refine ⟨⟨h1.idle h2 2, trivial⟩, ?_⟩
    exact h5.put (i := i) h2 h3 (.inr (by simp [setFn])) (c := 2) (.inr rfl) (e := .flush 2 i) none (fun _ _ hx => by cases hx) rfl rfl
  | flushRefused i rest again hr => cases hr
  | tgtFlushed i rest ht hst =>
    obtain ⟨h1, h2, h3, h4⟩ := tgt' i true rest ht
    exact ⟨trivial, h1.completed h2 (h.notQueued h4) true false⟩
  | tgtOdd i rest ht _ _ => exact ⟨trivial, (tgt' i true rest ht).1⟩

theorem fetch_keeps {kind : Src} {ss src tgt : Nat} {tr : List Ev} {f : Fetch}
    (h : Run (Fetch.Step false kind ss src tgt) (allocs 16 (ss * 512)) Fetch.new tr f) (ha : Answers tr) : Keeps tr := by
  refine (run_keeps (PInv ss) (allocs_fine _ _ _ fun _ _ => rfl) ?_ fetch_inv h ha).1
  rw [ledger_eq, allocs_run]
  exact ⟨fun b hb => by simp [hb], List.nodup_range, fun b hb => List.mem_range.mp hb, fun i b hb => (by cases hb), fun i j b hb => (by cases hb),
    List.nodup_nil, fun i hi => (by cases hi), fun i => Nat.zero_le _, fun i hi => absurd rfl hi, fun c i m hm => (by cases hm)⟩

/-! ## Recording stripe flags -/

def tok3 (m : Flags) (k : Ledger) (i : Nat) : Nat := cnt m.done i + one (k.lent 3 i)

structure MInv (sec : Nat → Nat) (m : Flags) (k : Ledger) : Prop where
  size : ∀ b, b < 16 → k.size b = some 512
  freeNodup : m.free.Nodup
  freeLt : ∀ b ∈ m.free, b < 16
  upLt : ∀ i b, m.ups i = some (b, true) → b < 16 ∧ b ∉ m.free
  inj : ∀ i j b, m.ups i = some (b, true) → m.ups j = some (b, true) → i = j
  secs : ∀ i, m.ups i ≠ none → sec i ∈ m.secs
  alone : ∀ i j, m.ups i ≠ none → m.ups j ≠ none → sec i = sec j → i = j
  one : ∀ i, tok3 m k i ≤ 1
  busy : ∀ i, tok3 m k i ≠ 0 → m.ups i ≠ none
  lent : ∀ c i x, k.lent c i = some x → c = 3 ∧ ∀ b len, x = some (b, len) → m.ups i = some (b, true)

/-- A request that has been answered is forgotten. -/
theorem MInv.forget {sec : Nat → Nat} {m : Flags} {k : Ledger} (h : MInv sec m k) {i : Nat} (hi : tok3 m k i = 0) (hu : m.ups i ≠ none) {fr : List Nat}
    (hn : fr.Nodup) (hf : ∀ b, b ∈ fr → b ∈ m.free ∨ m.ups i = some (b, true)) :
    MInv sec { m with ups := setFn m.ups i none, free := fr, secs := m.secs.erase (sec i) } k := by
  have hne : ∀ j x, setFn m.ups i none j = some x → j ≠ i ∧ m.ups j = some x := by
    intro j x hj
    simp only [setFn] at hj
    split at hj
    · cases hj
    · exact ⟨by assumption, hj⟩
  refine ⟨h.size, hn, ?_, ?_, ?_, ?_, ?_, h.one, ?_, ?_⟩
  · intro b hb
    rcases hf b hb with hb | hb
    · exact h.freeLt b hb
    · exact (h.upLt i b hb).1
  · intro j b hj
    obtain ⟨h1, h2⟩ := hne _ _ hj
    refine ⟨(h.upLt j b h2).1, fun hb => ?_⟩
    rcases hf b hb with hb | hb
    · exact (h.upLt j b h2).2 hb
    · exact h1 (h.inj _ _ _ h2 hb)
  · intro a b x ha hb
    exact h.inj _ _ _ (hne _ _ ha).2 (hne _ _ hb).2
  · intro j hj
    cases hx : setFn m.ups i none j with
    | none => exact absurd hx hj
    | some x =>
      obtain ⟨h1, h2⟩ := hne _ _ hx
      have h2' : m.ups j ≠ none := by rw [h2]; simp
      have hs : sec j ≠ sec i := fun he => h1 (h.alone j i h2' hu he)
      exact (List.mem_erase_of_ne hs).mpr (h.secs j h2')
  · intro a b ha hb he
    refine h.alone a b (fun h0 => ha ?_) (fun h0 => hb ?_) he <;> simp [setFn, h0]
  · intro j hj
    have : j ≠ i := by rintro rfl; exact hj hi
    simpa [setFn, this] using h.busy j hj
  · intro c j x hx
    obtain ⟨rfl, h2⟩ := h.lent c j x hx
    have : j ≠ i := by
      rintro rfl
      simp [tok3, hx, Lend.one] at hi
    exact ⟨rfl, fun b len he => by simp only [setFn, if_neg this]; exact h2 b len he⟩

theorem MInv.idle {sec : Nat → Nat} {m : Flags} {k : Ledger} (h : MInv sec m k) {i : Nat} (hi : tok3 m k i = 0) (c : Nat) :
    k.lent c i = none := by
  cases hl : k.lent c i with
  | none => rfl
  | some x =>
    obtain ⟨rfl, -⟩ := h.lent c i x hl
    simp [tok3, hl, Lend.one] at hi

theorem MInv.of_done {sec : Nat → Nat} {m : Flags} {k : Ledger} (h : MInv sec m k) {i : Nat} {ok : Bool} {rest : List (Nat × Bool)}
    (hd : m.done = (i, ok) :: rest) : MInv sec { m with done := rest } k ∧ tok3 { m with done := rest } k i = 0 := by
  have h1 := h.one i
  have h2 : tok3 m k i = tok3 { m with done := rest } k i + 1 := by simp only [tok3, hd, cnt_cons, if_true]; omega
  have h3 : ∀ j, tok3 { m with done := rest } k j ≤ tok3 m k j := by intro j; simp only [tok3, hd, cnt_cons]; omega
  refine ⟨⟨h.size, h.freeNodup, h.freeLt, h.upLt, h.inj, h.secs, h.alone, fun j => Nat.le_trans (h3 j) (h.one j), fun j hj => ?_, h.lent⟩, by omega⟩
  exact h.busy j (by have := h3 j; omega)

/-- A request is put on the channel. -/
theorem MInv.put {sec : Nat → Nat} {m : Flags} {k : Ledger} (h : MInv sec m k) {i : Nat} (hi : tok3 m k i = 0) (hu : m.ups i ≠ none)
    {e : Ev} (x : Option (Nat × Nat)) (hx : ∀ b len, x = some (b, len) → m.ups i = some (b, true))
    (he : (k.next e).lent = fun c' j => if c' = 3 ∧ j = i then some x else k.lent c' j) (hz : (k.next e).size = k.size) :
    MInv sec m (k.next e) := by
  have hother : ∀ j, j ≠ i → tok3 m (k.next e) j = tok3 m k j := by
    intro j hj; simp [tok3, he, hj]
  have hone : tok3 m (k.next e) i = 1 := by
    have h1 := h.idle hi 3
    simp only [tok3, he, h1, Lend.one] at hi ⊢
    simp [Lend.one]; omega
  refine ⟨by rw [hz]; exact h.size, h.freeNodup, h.freeLt, h.upLt, h.inj, h.secs, h.alone, ?_, ?_, ?_⟩
  · intro j
    by_cases hj : j = i
    · rw [hj, hone]; exact Nat.le_refl _
    · rw [hother j hj]; exact h.one j
  · intro j hj'
    by_cases hj : j = i
    · rw [hj]; exact hu
    · rw [hother j hj] at hj'; exact h.busy j hj'
  · intro c' j m' hl
    rw [he] at hl
    simp only at hl
    split at hl
    · rename_i hc
      obtain ⟨rfl, rfl⟩ := hc
      cases hl
      exact ⟨rfl, hx⟩
    · exact h.lent c' j m' hl

theorem nodup_snoc {l : List Nat} {b : Nat} (h : l.Nodup) (hb : b ∉ l) : (l ++ [b]).Nodup := by
  rw [List.nodup_append]
  refine ⟨h, by simp, fun a ha c hc hac => ?_⟩
  rw [List.mem_singleton] at hc
  rw [hac, hc] at ha
  exact hb ha

theorem flags_inv {sec : Nat → Nat} (m : Flags) (es : List Ev) (m' : Flags) (k : Ledger) (h : MInv sec m k)
    (st : Flags.Step false sec m es m') (hl : Law k es) : Fine k es ∧ MInv sec m' (run k es) := by
  cases st with
  | request i hd => exact ⟨trivial, h.size, h.freeNodup, h.freeLt, h.upLt, h.inj, h.secs, h.alone, h.one, h.busy, h.lent⟩
  | skip i q hd hq hs => exact ⟨trivial, h.size, h.freeNodup, h.freeLt, h.upLt, h.inj, h.secs, h.alone, h.one, h.busy, h.lent⟩
  | start i b q fr hd hq hf hs =>
    have hu : m.ups i = none := by
      cases hu : m.ups i with
      | none => rfl
      | some x => exact absurd (h.secs i (by rw [hu]; simp)) hs
    have hi : tok3 m k i = 0 := Decidable.byContradiction fun h0 => h.busy i h0 hu
    have hfn := h.freeNodup; rw [hf, List.nodup_cons] at hfn
    have hb := h.freeLt b (by simp [hf])
    have hquiet : k.quiet b := by
      intro c j l hj
      have := (h.lent c j _ hj).2 b l rfl
      exact (h.upLt j b this).2 (by simp [hf])
    have hback : ∀ j x, j ≠ i → setFn m.ups i (some (b, true)) j = some x → m.ups j = some x := by
      intro j x hj hx; simpa [setFn, hj] using hx
    have hne : ∀ j, j ≠ i → setFn m.ups i (some (b, true)) j ≠ none → m.ups j ≠ none := by
      intro j hj hx; simpa [setFn, hj] using hx
    have h1 : MInv sec { m with queue := q, free := fr, ups := setFn m.ups i (some (b, true)), secs := sec i :: m.secs } k := by
      refine ⟨h.size, hfn.2, fun x hx => h.freeLt x (by simp [hf, hx]), ?_, ?_, ?_, ?_, h.one, ?_, ?_⟩
      · intro j x hj
        by_cases he : j = i
        · simp only [setFn, he, if_true] at hj; cases hj; exact ⟨hb, hfn.1⟩
        · have := h.upLt j x (hback j _ he hj)
          exact ⟨this.1, fun hx => this.2 (by simp [hf, hx])⟩
      · intro x y z hx hy
        by_cases h1 : x = i <;> by_cases h2 : y = i
        · exact h1.trans h2.symm
        · simp only [setFn, h1, if_true] at hx; cases hx
          exact absurd (by simp [hf]) (h.upLt y b (hback y _ h2 hy)).2
        · simp only [setFn, h2, if_true] at hy; cases hy
          exact absurd (by simp [hf]) (h.upLt x b (hback x _ h1 hx)).2
        · exact h.inj _ _ _ (hback x _ h1 hx) (hback y _ h2 hy)
      · intro j hj
        by_cases he : j = i
        · simp [he]
        · exact List.mem_cons_of_mem _ (h.secs j (hne j he hj))
      · intro x y hx hy he
        by_cases h1 : x = i <;> by_cases h2 : y = i
        · exact h1.trans h2.symm
        · exact absurd (by rw [← h1, he]; exact h.secs y (hne y h2 hy)) hs
        · exact absurd (by rw [← h2, ← he]; exact h.secs x (hne x h1 hx)) hs
        · exact h.alone x y (hne x h1 hx) (hne y h2 hy) he
      · intro j hj
        by_cases he : j = i
        · simp [setFn, he]
        · simpa [setFn, he] using h.busy j hj
      · intro c j x hx
        obtain ⟨rfl, h2⟩ := h.lent c j x hx
        have : j ≠ i := by rintro rfl; rw [h.idle hi] at hx; cases hx
        exact ⟨rfl, fun b' l he => by simp only [setFn, if_neg this]; exact h2 b' l he⟩
    refine ⟨⟨⟨by rw [h.size b hb]; simp, hquiet⟩, ⟨⟨512, h.size b hb, by decide⟩, hquiet, h.idle hi 3⟩, trivial⟩, ?_⟩
    exact h1.put (i := i) hi (by simp [setFn]) (e := .add 3 i true b (sqeLen 1)) (some (b, sqeLen 1))
      (fun x l hx => by cases hx; simp [setFn]) rfl rfl
  | startRefused i b hr => cases hr
  | poll rs hd =>
    refine ⟨⟨trivial, trivial⟩, ?_⟩
    have htok : ∀ j, tok3 { m with done := rs } (k.next (.poll 3 rs)) j = tok3 m k j := by
      intro j
      have := poll_one hl.1 j
      simp only [tok3, hd, cnt_nil]; omega
    exact ⟨h.size, h.freeNodup, h.freeLt, h.upLt, h.inj, h.secs, h.alone, fun j => (htok j) ▸ h.one j,
      fun j hj => h.busy j fun h0 => hj ((htok j).trans h0), fun c j x hx => h.lent c j x (poll_some hx)⟩
  | unknown i ok rest hd hu => exact ⟨trivial, (h.of_done hd).1⟩
  | failed i b wr rest hd hu =>
    obtain ⟨h1, h2⟩ := h.of_done hd
    refine ⟨trivial, h1.forget (i := i) h2 (by simp [hu]) ?_ ?_⟩
    · cases wr with
      | false => exact h.freeNodup
      | true => exact nodup_snoc h.freeNodup (h.upLt i b hu).2
    · intro x hx
      cases wr with
      | false => exact .inl hx
      | true =>
        simp only [if_true, List.mem_append, List.mem_singleton] at hx
        rcases hx with hx | rfl
        · exact .inl hx
        · exact .inr hu
  | written i b rest hd hu =>
    obtain ⟨h1, h2⟩ := h.of_done hd
    refine ⟨⟨h1.idle h2 3, trivial⟩, ?_⟩
    have hback : ∀ j x, setFn m.ups i (some (b, false)) j = some (x, true) → j ≠ i ∧ m.ups j = some (x, true) := by
      intro j x hx
      simp only [setFn] at hx
      split at hx
      · cases hx
      · exact ⟨by assumption, hx⟩
    have hne : ∀ j, setFn m.ups i (some (b, false)) j ≠ none → m.ups j ≠ none := by
      intro j hx
      by_cases he : j = i
      · rw [he, hu]; simp
      · simpa [setFn, he] using hx
    have h3 : MInv sec { m with done := rest, ups := setFn m.ups i (some (b, false)), free := m.free ++ [b] } k := by
      refine ⟨h.size, nodup_snoc h.freeNodup (h.upLt i b hu).2, ?_, ?_, ?_, fun j hj => h.secs j (hne j hj),
        fun x y hx hy => h.alone x y (hne x hx) (hne y hy), h1.one, ?_, ?_⟩
      · intro x hx
        rw [List.mem_append, List.mem_singleton] at hx
        rcases hx with hx | rfl
        · exact h.freeLt x hx
        · exact (h.upLt i x hu).1
      · intro j x hj
        obtain ⟨h4, h5⟩ := hback j x hj
        refine ⟨(h.upLt j x h5).1, fun hx => ?_⟩
        rw [List.mem_append, List.mem_singleton] at hx
        rcases hx with hx | rfl
        · exact (h.upLt j x h5).2 hx
        · exact h4 (h.inj _ _ _ h5 hu)
      · intro x y z hx hy; exact h.inj _ _ _ (hback x z hx).2 (hback y z hy).2
      · intro j hj
        by_cases he : j = i
        · simp [setFn, he]
        · simpa [setFn, he] using h1.busy j hj
      · intro c j x hx
        obtain ⟨rfl, h4⟩ := h1.lent c j x hx
        have : j ≠ i := by rintro rfl; rw [h1.idle h2] at hx; cases hx
        exact ⟨rfl, fun b' l he => by simp only [setFn, if_neg this]; exact h4 b' l he⟩
    exact h3.put (i := i) h2 (by simp [setFn]) (e := .flush 3 i) none (fun _ _ hx => by cases hx) rfl rfl
  | flushed i b rest hd hu =>
    obtain ⟨h1, h2⟩ := h.of_done hd
    exact ⟨trivial, h1.forget (i := i) h2 (by simp [hu]) (fr := m.free) h.freeNodup fun x hx => .inl hx⟩
  | flushRefused i b hr => cases hr

theorem flags_keeps {sec : Nat → Nat} {tr : List Ev} {m : Flags} (h : Run (Flags.Step false sec) (allocs 16 512) Flags.new tr m)
    (ha : Answers tr) : Keeps tr := by
  refine (run_keeps (MInv sec) (allocs_fine _ _ _ fun _ _ => rfl) ?_ flags_inv h ha).1
  rw [ledger_eq, allocs_run]
  exact ⟨fun b hb => by simp [hb], List.nodup_range, fun b hb => List.mem_range.mp hb, fun i b hb => (by cases hb), fun i j b hb => (by cases hb),
    fun i hi => absurd rfl hi, fun i j hi => absurd rfl hi, fun i => Nat.zero_le _, fun i hi => absurd rfl hi, fun c i m hm => (by cases hm)⟩

/-! ## The archiver -/

def tok45 (a : Arch) (k : Ledger) (i : Nat) : Nat := a.asked.count i + cnt a.done i + one (k.lent 4 i) + one (k.lent 5 i)

structure AInv (q ss : Nat) (a : Arch) (k : Ledger) : Prop where
  size : ∀ b, b < q → k.size b = some (ss * 512)
  freeNodup : a.free.Nodup
  freeLt : ∀ b ∈ a.free, b < q
  gotLt : ∀ i b, a.got i = some b → i < a.next ∧ b < q ∧ b ∉ a.free
  inj : ∀ i j b, a.got i = some b → a.got j = some b → i = j
  one : ∀ i, tok45 a k i ≤ 1
  busy : ∀ i, tok45 a k i ≠ 0 → a.got i ≠ none
  lent : ∀ c i x, k.lent c i = some x → (c = 4 ∨ c = 5) ∧ ∀ b len, x = some (b, len) → a.got i = some b

theorem AInv.idle {q ss : Nat} {a : Arch} {k : Ledger} (h : AInv q ss a k) {i : Nat} (hi : tok45 a k i = 0) (c : Nat) : k.lent c i = none := by
  cases hl : k.lent c i with
  | none => rfl
  | some x =>
    rcases (h.lent c i x hl).1 with rfl | rfl <;> simp [tok45, hl, Lend.one] at hi

theorem AInv.quiet {q ss : Nat} {a : Arch} {k : Ledger} (h : AInv q ss a k) {i b : Nat} (hg : a.got i = some b) (h4 : k.lent 4 i = none)
    (h5 : k.lent 5 i = none) : k.quiet b := by
  intro c j len hl
  obtain ⟨h1, h2⟩ := h.lent c j _ hl
  have := h.inj _ _ _ (h2 b len rfl) hg
  subst this
  rcases h1 with rfl | rfl
  · rw [h4] at hl; cases hl
  · rw [h5] at hl; cases hl

/-- A buffer is taken for the next stripe. -/
theorem AInv.take {q ss : Nat} {a : Arch} {k : Ledger} (h : AInv q ss a k) {b : Nat} {fr : List Nat} (hf : a.free = b :: fr) :
    tok45 a k a.next = 0 ∧ b < q ∧ k.quiet b ∧
      AInv q ss { a with next := a.next + 1, free := fr, got := setFn a.got a.next (some b) } k := by
  have hn : a.got a.next = none := by
    cases hg : a.got a.next with
    | none => rfl
    | some x => exact absurd (h.gotLt _ _ hg).1 (Nat.lt_irrefl _)
  have hi : tok45 a k a.next = 0 := Decidable.byContradiction fun h0 => h.busy _ h0 hn
  have hfn := h.freeNodup; rw [hf, List.nodup_cons] at hfn
  have hb := h.freeLt b (by simp [hf])
  refine ⟨hi, hb, ?_, ⟨h.size, hfn.2, fun x hx => h.freeLt x (by simp [hf, hx]), ?_, ?_, h.one, ?_, ?_⟩⟩
  · intro c j l hj
    have := (h.lent c j _ hj).2 b l rfl
    exact (h.gotLt j b this).2.2 (by simp [hf])
  · intro j x hj
    simp only [setFn] at hj
    split at hj
    · rename_i he; cases hj; exact ⟨by simp [he], hb, hfn.1⟩
    · have := h.gotLt j x hj
      exact ⟨Nat.lt_succ_of_lt this.1, this.2.1, fun hx => this.2.2 (by simp [hf, hx])⟩
  · intro x y z hx hy
    simp only [setFn] at hx hy
    split at hx <;> split at hy
    · rename_i h1 h2; exact h1.trans h2.symm
    · cases hx; exact absurd (by simp [hf]) (h.gotLt y b hy).2.2
    · cases hy; exact absurd (by simp [hf]) (h.gotLt x b hx).2.2
    · exact h.inj _ _ _ hx hy
  · intro j hj
    have hne : j ≠ a.next := by rintro rfl; exact hj hi
    simpa [setFn, hne] using h.busy j hj
  · intro c j m hm
    obtain ⟨h1, h2⟩ := h.lent c j m hm
    have hne : j ≠ a.next := by rintro rfl; rw [h.idle hi] at hm; cases hm
    exact ⟨h1, fun x l he => by simp only [setFn, if_neg hne]; exact h2 x l he⟩

theorem AInv.put {q ss : Nat} {a : Arch} {k : Ledger} (h : AInv q ss a k) {i b len : Nat} (hi : tok45 a k i = 0) (hg : a.got i = some b)
    {c : Nat} (hc : c = 4 ∨ c = 5) {w : Bool} : AInv q ss a (k.next (.add c i w b len)) := by
  have he : (k.next (.add c i w b len)).lent = fun c' j => if c' = c ∧ j = i then some (some (b, len)) else k.lent c' j := rfl
  have hother : ∀ j, j ≠ i → tok45 a (k.next (.add c i w b len)) j = tok45 a k j := by
    intro j hj; simp [tok45, he, hj]
  have hone : tok45 a (k.next (.add c i w b len)) i = 1 := by
    have h1 := h.idle hi 4
    have h2 := h.idle hi 5
    simp only [tok45, he, h1, h2, Lend.one] at hi ⊢
    rcases hc with rfl | rfl <;> simp [Lend.one] <;> omega
  refine ⟨h.size, h.freeNodup, h.freeLt, h.gotLt, h.inj, ?_, ?_, ?_⟩
  · intro j
    by_cases hj : j = i
    · rw [hj, hone]; exact Nat.le_refl _
    · rw [hother j hj]; exact h.one j
  · intro j hj'
    by_cases hj : j = i
    · rw [hj, hg]; simp
    · rw [hother j hj] at hj'; exact h.busy j hj'
  · intro c' j m' hl
    rw [he] at hl
    simp only at hl
    split at hl
    · rename_i hx
      obtain ⟨rfl, rfl⟩ := hx
      cases hl
      exact ⟨hc, fun x l hx => by cases hx; exact hg⟩
    · exact h.lent c' j m' hl

theorem arch_inv {kind : Src} {q count ss src : Nat} (a : Arch) (es : List Ev) (a' : Arch) (k : Ledger) (h : a.gone = true ∨ AInv q ss a k)
    (st : Arch.Step false kind q count ss src a es a') (hl : Law k es) : Fine k es ∧ (a'.gone = true ∨ AInv q ss a' (run k es)) := by
  have inv : a.gone = false → AInv q ss a k := fun hg => h.resolve_left (by rw [hg]; simp)
  cases st with
  | skip hg hd hn =>
    have h := inv hg
    exact ⟨trivial, .inr ⟨h.size, h.freeNodup, h.freeLt, fun i b hb => by
      have := h.gotLt i b hb; exact ⟨Nat.lt_succ_of_lt this.1, this.2⟩, h.inj, h.one, h.busy, h.lent⟩⟩
  | disk b fr hg hd hn hf =>
    obtain ⟨h1, h2, h3, h4⟩ := (inv hg).take hf
    refine ⟨⟨⟨⟨ss * 512, (inv hg).size b h2, sqeLen_le _⟩, h3, (inv hg).idle h1 4⟩, trivial⟩, .inr ?_⟩
    exact h4.put (i := a.next) (w := false) h1 (by simp [setFn]) (.inl rfl)
  | image b fr hg hd hn hf hk hs =>
    obtain ⟨h1, h2, h3, h4⟩ := (inv hg).take hf
    refine ⟨⟨⟨⟨ss * 512, (inv hg).size b h2, Nat.le_trans (sqeLen_le _) (Nat.mul_le_mul_right _ (Nat.min_le_left _ _))⟩, h3, (inv hg).idle h1 5⟩, trivial⟩, .inr ?_⟩
    exact h4.put (i := a.next) (w := false) h1 (by simp [setFn]) (.inr rfl)
  | copied b fr hg hd hn hf hk =>
    obtain ⟨h1, h2, h3, h4⟩ := (inv hg).take hf
    refine ⟨trivial, .inr ⟨h4.size, h4.freeNodup, h4.freeLt, h4.gotLt, h4.inj, ?_, ?_, h4.lent⟩⟩
    · intro j
      have := (inv hg).one j
      by_cases hj : j = a.next
      · subst hj; simp only [tok45, List.count_append, run_nil] at h1 ⊢; simp; omega
      · have : List.count j [a.next] = 0 := by simp [List.count_singleton, Ne.symm hj]
        simp only [tok45, List.count_append, run_nil, this] at *; omega
    · intro j hj'
      by_cases hj : j = a.next
      · subst hj; simp [setFn]
      · refine h4.busy j fun h0 => hj' ?_
        have : List.count j [a.next] = 0 := by simp [List.count_singleton, Ne.symm hj]
        simp only [tok45, List.count_append, run_nil, this] at h0 ⊢; omega
  | poll rs rs' hg hd hk =>
    have h := inv hg
    have htok : ∀ j, tok45 { a with done := rs ++ rs' } ((k.next (.poll 4 rs)).next (.poll 5 rs')) j = tok45 a k j := by
      intro j
      have h4 := poll_one hl.1 j
      have h5 := poll_one hl.2.1 j
      rw [poll_other (c := 4) (c' := 5) (rs := rs) (by decide)] at h5
      simp only [tok45, hd, cnt_nil, cnt_append, poll_other (c := 5) (c' := 4) (rs := rs') (by decide)]
      omega
    refine ⟨⟨trivial, trivial, trivial⟩, .inr ⟨h.size, h.freeNodup, h.freeLt, h.gotLt, h.inj, fun j => (htok j) ▸ h.one j,
      fun j hj => h.busy j fun h0 => hj ((htok j).trans h0), fun c j x hx => h.lent c j x (poll_some (poll_some hx))⟩⟩
  | pollCopied i b ok hg hd hk ha hgot =>
    have h := inv hg
    have hc := List.count_pos_iff.mpr ha
    have h1 := h.one i
    have htok : ∀ j, tok45 { a with done := [(i, ok)], asked := a.asked.erase i } k j = tok45 a k j := by
      intro j
      simp only [tok45, hd, cnt_cons, cnt_nil, List.count_erase]
      by_cases hj : i = j
      · subst hj; simp; omega
      · simp [hj]
    have key : AInv q ss { a with done := [(i, ok)], asked := a.asked.erase i } k :=
      ⟨h.size, h.freeNodup, h.freeLt, h.gotLt, h.inj, fun j => (htok j) ▸ h.one j, fun j hj => h.busy j fun h0 => hj ((htok j).trans h0), h.lent⟩
    cases ok with
    | false => exact ⟨trivial, .inr key⟩
    | true =>
      refine ⟨⟨⟨by rw [h.size b (h.gotLt i b hgot).2.1]; simp, h.quiet hgot (one_eq.mp ?_) (one_eq.mp ?_)⟩, trivial⟩, .inr key⟩ <;>
        simp only [tok45] at h1 <;> omega
  | upload i b rest hg hd hgot =>
    have h := inv hg
    have h1 := h.one i
    have h2 : tok45 a k i = tok45 { a with done := rest } k i + 1 := by simp only [tok45, hd, cnt_cons, if_true]; omega
    have h3 : ∀ j, tok45 { a with done := rest } k j ≤ tok45 a k j := by intro j; simp only [tok45, hd, cnt_cons]; omega
    have h0 : tok45 { a with done := rest } k i = 0 := by omega
    have h4 : k.lent 4 i = none ∧ k.lent 5 i = none := by
      refine ⟨one_eq.mp ?_, one_eq.mp ?_⟩ <;> simp only [tok45] at h0 <;> omega
    have hback : ∀ j x, setFn a.got i none j = some x → j ≠ i ∧ a.got j = some x := by
      intro j x hj
      simp only [setFn] at hj
      split at hj
      · cases hj
      · exact ⟨by assumption, hj⟩
    refine ⟨⟨⟨by rw [h.size b (h.gotLt i b hgot).2.1]; simp, h.quiet hgot h4.1 h4.2⟩, trivial⟩, .inr ⟨h.size,
      nodup_snoc h.freeNodup (h.gotLt i b hgot).2.2, ?_, ?_, ?_, fun j => Nat.le_trans (h3 j) (h.one j), ?_, ?_⟩⟩
    · intro x hx
      rw [List.mem_append, List.mem_singleton] at hx
      rcases hx with hx | rfl
      · exact h.freeLt x hx
      · exact (h.gotLt i x hgot).2.1
    · intro j x hj
      obtain ⟨h5, h6⟩ := hback j x hj
      obtain ⟨h7, h8, h9⟩ := h.gotLt j x h6
      refine ⟨h7, h8, fun hx => ?_⟩
      rw [List.mem_append, List.mem_singleton] at hx
      rcases hx with hx | rfl
      · exact h9 hx
      · exact h5 (h.inj _ _ _ h6 hgot)
    · intro x y z hx hy; exact h.inj _ _ _ (hback x z hx).2 (hback y z hy).2
    · intro j hj
      have hj' : tok45 { a with done := rest } k j ≠ 0 := hj
      have hne : j ≠ i := by rintro rfl; exact hj' h0
      have := h.busy j (by have := h3 j; omega)
      simpa [setFn, hne] using this
    · intro c j x hx
      obtain ⟨h5, h6⟩ := h.lent c j x hx
      have hne : j ≠ i := by
        rintro rfl
        rcases h5 with rfl | rfl
        · have hx' : k.lent 4 j = some x := hx
          rw [h4.1] at hx'; cases hx'
        · have hx' : k.lent 5 j = some x := hx
          rw [h4.2] at hx'; cases hx'
      exact ⟨h5, fun b' l he => by simp only [setFn, if_neg hne]; exact h6 b' l he⟩
  | finished hg hd hc hn =>
    have h := inv hg
    refine ⟨frees_fine _ _ List.nodup_range (fun b hb => ?_) (fun b hb c i l hl => ?_), .inl rfl⟩
    · rw [h.size b (List.mem_range.mp hb)]; simp
    · have := (h.lent c i _ hl).2 b l rfl
      rw [hn] at this; cases this
  | failed hf => cases hf

theorem arch_keeps {kind : Src} {q count ss src : Nat} {tr : List Ev} {a : Arch}
    (h : Run (Arch.Step false kind q count ss src) (allocs q (ss * 512)) (Arch.new q) tr a) (ha : Answers tr) : Keeps tr := by
  refine (run_keeps (fun a k => a.gone = true ∨ AInv q ss a k) (allocs_fine _ _ _ fun _ _ => rfl) (.inr ?_) arch_inv h ha).1
  rw [ledger_eq, allocs_run]
  exact ⟨fun b hb => by simp [hb], List.nodup_range, fun b hb => List.mem_range.mp hb, fun i b hb => (by cases hb), fun i j b hb => (by cases hb),
    fun i => Nat.zero_le _, fun i hi => absurd rfl hi, fun c i m hm => (by cases hm)⟩

end Verif.Lend
