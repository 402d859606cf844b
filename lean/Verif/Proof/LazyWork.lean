import Verif.Spec.LazyWork
import Verif.Proof.LazyServe

/-! The work of the lazily fetched disk: a measure that every useful step decreases. -/

namespace Verif.Lazy
open Verif Verif.Metadata Verif.Disk

variable {D : Type} {c : Cfg D}

/-! ### What a device still has to do -/

def opLeft : Op D → Nat
  | .read off cnt got => Lazy.cnt cnt fun i => (got (off + i)).isNone
  | .write off cnt _ done => Lazy.cnt cnt fun i => !done (off + i)
  | .flush _ => 0

def loadOf : Option (Op D) → Nat
  | none => 0
  | some op => opLeft op + 1

section dev
variable {O : Type} [DecidableEq O]

def load (d : Dev O D) (o : O) : Nat := loadOf (d.ops o)

theorem cnt_true (n : Nat) {f : Nat → Bool} (h : ∀ i, i < n → f i = true) : cnt n f = n := by
  induction n with
  | zero => rfl
  | succ n ih => rw [cnt_succ, ih fun i hi => h i (by omega), h n (by omega)]; rfl

theorem load_issueRead (d : Dev O D) (o o' : O) (off cnt : Nat) : load (d.issueRead o off cnt) o' = if o' = o then cnt + 1 else load d o' := by
  unfold load Dev.issueRead
  by_cases h : o' = o
  · subst h; simp [loadOf, opLeft, cnt_true]
  · simp [upd, h]

theorem load_issueWrite (d : Dev O D) (o o' : O) (off cnt : Nat) (data : Nat → D) :
    load (d.issueWrite o off cnt data) o' = if o' = o then cnt + 1 else load d o' := by
  unfold load Dev.issueWrite
  by_cases h : o' = o
  · subst h; simp [loadOf, opLeft, cnt_true]
  · simp only [upd_ne _ _ h, h, if_false]
    cases d.ops o' with
    | none => rfl
    | some op => cases op <;> rfl

theorem load_issueFlush (d : Dev O D) (o o' : O) : load (d.issueFlush o) o' = if o' = o then 1 else load d o' := by
  unfold load Dev.issueFlush
  by_cases h : o' = o
  · subst h; simp [loadOf, opLeft]
  · simp [upd, h]

theorem load_complete (d : Dev O D) (o o' : O) (ok : Bool) : load (d.complete o ok) o' = if o' = o then 0 else load d o' := by
  unfold load Dev.complete
  by_cases h : o' = o
  · subst h; simp [loadOf]
  · simp [upd, h]

theorem load_exec_ne (d : Dev O D) {o o' : O} (x : Nat) (h : o' ≠ o) : load (d.exec o x) o' = load d o' := by
  unfold load; rw [ops_exec_ne d x h]

theorem left_read {off n x : Nat} (hx : covers off n x) (got : Nat → Option D) (v : D) :
    opLeft (.read off n (upd got x (some v))) + (got x).isNone.toNat = opLeft (.read off n got) := by
  unfold covers at hx
  have h := cnt_upd (n := n) (k := x - off) (fun i => (got (off + i)).isNone) false (by omega)
  simp only [show off + (x - off) = x by omega] at h
  have e : (fun i => (upd got x (some v) (off + i)).isNone) = upd (fun i => (got (off + i)).isNone) (x - off) false := by
    funext i
    by_cases hi : i = x - off
    · subst hi; simp [show off + (x - off) = x by omega]
    · rw [upd_ne _ _ hi, upd_ne _ _ (by omega)]
  simp only [opLeft, e]
  simpa using h

theorem left_write {off n x : Nat} (hx : covers off n x) (data : Nat → D) (done : Nat → Bool) :
    opLeft (.write off n data (upd done x true)) + (!done x).toNat = opLeft (.write off n data done) := by
  unfold covers at hx
  have h := cnt_upd (n := n) (k := x - off) (fun i => !done (off + i)) false (by omega)
  simp only [show off + (x - off) = x by omega] at h
  have e : (fun i => !(upd done x true (off + i))) = upd (fun i => !done (off + i)) (x - off) false := by
    funext i
    by_cases hi : i = x - off
    · subst hi; simp [show off + (x - off) = x by omega]
    · rw [upd_ne _ _ hi, upd_ne _ _ (by omega)]
  simp only [opLeft, e]
  simpa using h

theorem load_exec_le (d : Dev O D) (o o' : O) (x : Nat) : load (d.exec o x) o' ≤ load d o' := by
  by_cases h : o' = o
  · subst h
    rcases exec_cases d o' x with h | ⟨off, cnt, got, h1, h2, h⟩ | ⟨off, cnt, data, done, h1, h2, h⟩
    · rw [h]; exact Nat.le_refl _
    · have := left_read h2 got (d.vol x)
      rw [h]
      unfold load
      simp only [upd_same, h1, loadOf]
      omega
    · have := left_write h2 data done
      rw [h]
      unfold load
      simp only [upd_same, h1, loadOf]
      omega
  · rw [load_exec_ne d x h]; exact Nat.le_refl _

theorem load_exec_useful {d : Dev O D} {o : O} {x : Nat} {op : Op D} (h : d.ops o = some op) (hx : op.missing x) :
    load (d.exec o x) o + 1 ≤ load d o := by
  cases op with
  | flush snap => exact hx.elim
  | read off cnt got =>
    have := left_read hx.1 got (d.vol x)
    rw [exec_read h hx.1]
    unfold load
    simp only [upd_same, h, loadOf]
    rw [hx.2] at this
    simp at this
    omega
  | write off cnt data done =>
    have := left_write hx.1 data done
    rw [exec_write h hx.1]
    unfold load
    simp only [upd_same, h, loadOf]
    rw [hx.2] at this
    simp at this
    omega

theorem load_pos {d : Dev O D} {o : O} (h : d.ops o ≠ none) : 1 ≤ load d o := by
  unfold load
  cases ho : d.ops o with
  | none => exact absurd ho h
  | some op => simp [loadOf]

/-- A request in flight can move: a sector is missing, or it can complete. -/
theorem op_moves {d : Dev O D} {o : O} (h : d.ops o ≠ none) : (∃ op x, d.ops o = some op ∧ op.missing x) ∨ d.mayComplete o true := by
  cases ho : d.ops o with
  | none => exact absurd ho h
  | some op =>
    by_cases hm : ∃ x, op.missing x
    · obtain ⟨x, hx⟩ := hm; exact Or.inl ⟨op, x, rfl, hx⟩
    · refine Or.inr ⟨op, ho, fun _ => ?_⟩
      cases op with
      | flush snap => trivial
      | read off cnt got => exact fun x hx e => hm ⟨x, hx, e⟩
      | write off cnt data done =>
        intro x hx
        cases hd : done x with
        | true => rfl
        | false => exact absurd ⟨x, hx, hd⟩ hm

end dev

/-! ### Sums over lists -/

def lsum {α : Type} (l : List α) (f : α → Nat) : Nat := (l.map f).sum

theorem lsum_congr {α : Type} {l : List α} {f g : α → Nat} (h : ∀ a ∈ l, f a = g a) : lsum l f = lsum l g := by
  unfold lsum; rw [List.map_congr_left h]

theorem lsum_zero {α : Type} (l : List α) : lsum l (fun _ => 0) = 0 := by
  unfold lsum
  induction l with
  | nil => rfl
  | cons a l ih => simp only [List.map_cons, List.sum_cons, ih]

theorem lsum_le {α : Type} {l : List α} {f g : α → Nat} (h : ∀ a, f a ≤ g a) : lsum l f ≤ lsum l g := by
  unfold lsum
  induction l with
  | nil => exact Nat.le_refl _
  | cons a l ih => simp only [List.map_cons, List.sum_cons]; have := h a; omega

theorem lsum_one {α : Type} {l : List α} {a : α} {f g : α → Nat} (hn : l.Nodup) (ha : a ∈ l) (h : ∀ b, b ≠ a → g b = f b) :
    lsum l g + f a = lsum l f + g a := by
  unfold lsum
  induction l with
  | nil => simp at ha
  | cons b l ih =>
    rw [List.nodup_cons] at hn
    simp only [List.map_cons, List.sum_cons]
    by_cases hab : b = a
    · subst hab
      have : lsum l g = lsum l f := lsum_congr fun x hx => h x fun e => hn.1 (e ▸ hx)
      unfold lsum at this
      omega
    · have := ih hn.2 (by simpa [Ne.symm hab] using ha)
      rw [h b hab]
      omega

/-! ### The measure -/

/-- Cost of one attempt to fetch a stripe. -/
def attempt (c : Cfg D) : Nat := c.ss + 6

def stV (c : Cfg D) (st : Option FetchState) (si : Bool) (ret ld : Nat) : Nat :=
  match st with
  | none | some .fetched => 0
  | some .queued => (3 - ret) * attempt c + attempt c + 7
  | some .fetching => (3 - ret) * attempt c + 7 + (if si then c.ss + 5 else ld + 2)
  | some .flushing => (3 - ret) * attempt c + 7 + 1

def updV (u : Option Update) (ld : Nat) : Nat :=
  match u with
  | none => 0
  | some u => if u.stage = .writing then ld + 2 else 2

def kV (c : Cfg D) (s : Sys D) (k : Nat) : Nat :=
  stV c (s.fe.states k) (s.fe.srcIn k) (s.fe.retries k) (load s.t (.fetch k)) + updV (s.fl.updates k) (load s.m k)

/-- Lists of the worker. -/
def base (c : Cfg D) (s : Sys D) : Nat :=
  (4 * c.ss + 32) * (s.msgs.length + s.fe.autoq.length) + 6 * s.fl.queue.length + 7 * s.fe.finished.length +
    (if s.fe.disconnected then 0 else 1)

def wmu (c : Cfg D) (s : Sys D) : Nat := base c s + sumTo c.n (kV c s)

def chW (ch : Chan D) : Nat := lsum ch.queue (fun r => r.cnt + 2) + ch.finished.length

def gW (s : Sys D) (p : Nat × Nat) : Nat := load s.t (.guest p.1 p.2) + if ((s.ch p.1).img p.2).isSome then 1 else 0

def gmu (Q : List Nat) (I : List (Nat × Nat)) (s : Sys D) : Nat := lsum Q (fun q => chW (s.ch q)) + lsum I (gW s)

theorem wmu_at {s s' : Sys D} {k : Nat} (hk : k < c.n) (hj : ∀ j, j ≠ k → kV c s' j = kV c s j)
    (e : base c s' + kV c s' k + 1 ≤ base c s + kV c s k) : wmu c s' + 1 ≤ wmu c s := by
  have := sumTo_one (f := kV c s) (g := kV c s') hk hj
  unfold wmu
  omega

theorem wmu_base {s s' : Sys D} (hj : ∀ j, kV c s' j = kV c s j) (e : base c s' + 1 ≤ base c s) : wmu c s' + 1 ≤ wmu c s := by
  have := sumTo_congr (n := c.n) (f := kV c s') (g := kV c s) fun j _ => hj j
  unfold wmu
  omega

theorem sumTo_le {n : Nat} {f g : Nat → Nat} (h : ∀ j, f j ≤ g j) : sumTo n f ≤ sumTo n g := by
  induction n with
  | zero => exact Nat.le_refl _
  | succ n ih => rw [sumTo_succ, sumTo_succ]; have := h n; omega

theorem stV_le (c : Cfg D) (st : Option FetchState) (si : Bool) (ret : Nat) {ld ld' : Nat} (h : ld ≤ ld') : stV c st si ret ld ≤ stV c st si ret ld' := by
  unfold stV
  split <;> (try split) <;> omega

theorem updV_le (u : Option Update) {ld ld' : Nat} (h : ld ≤ ld') : updV u ld ≤ updV u ld' := by
  unfold updV
  split
  · exact Nat.le_refl _
  · split <;> omega

/-- Guest part when the queues are the same and the guest requests at the data device are. -/
theorem gmu_same {Q : List Nat} {I : List (Nat × Nat)} {s s' : Sys D} (h1 : s'.ch = s.ch)
    (h2 : ∀ q id, load s'.t (.guest q id) = load s.t (.guest q id)) : gmu Q I s' = gmu Q I s := by
  unfold gmu
  rw [h1, lsum_congr (f := gW s') (g := gW s) fun p _ => by unfold gW; rw [h1, h2]]

/-! ### Transfers -/

theorem execData_le (Q : List Nat) (I : List (Nat × Nat)) (s : Sys D) (o : Owner) (x : Nat) :
    wmu c { s with t := s.t.exec o x } + gmu Q I { s with t := s.t.exec o x } ≤ wmu c s + gmu Q I s := by
  have h1 : ∀ j, kV c { s with t := s.t.exec o x } j ≤ kV c s j := fun j =>
    Nat.add_le_add (stV_le c _ _ _ (load_exec_le s.t o (.fetch j) x)) (Nat.le_refl _)
  have h2 : ∀ p, gW { s with t := s.t.exec o x } p ≤ gW s p := fun p =>
    Nat.add_le_add (load_exec_le s.t o (.guest p.1 p.2) x) (Nat.le_refl _)
  have h3 := sumTo_le (n := c.n) h1
  have h4 := lsum_le (l := I) h2
  unfold wmu gmu
  have h5 : base c { s with t := s.t.exec o x } = base c s := rfl
  rw [h5]
  simp only
  omega

theorem execMeta_le (Q : List Nat) (I : List (Nat × Nat)) (s : Sys D) (k : Nat) (x : Nat) :
    wmu c { s with m := s.m.exec k x } + gmu Q I { s with m := s.m.exec k x } ≤ wmu c s + gmu Q I s := by
  have h1 : ∀ j, kV c { s with m := s.m.exec k x } j ≤ kV c s j := fun j =>
    Nat.add_le_add (Nat.le_refl _) (updV_le _ (load_exec_le s.m k j x))
  have h3 := sumTo_le (n := c.n) h1
  have h4 : gmu Q I { s with m := s.m.exec k x } = gmu Q I s := gmu_same rfl fun _ _ => rfl
  unfold wmu
  have h5 : base c { s with m := s.m.exec k x } = base c s := rfl
  rw [h5, h4]
  omega

/-! ### Steps of the worker -/

theorem fetchCompleted_down {s0 s : Sys D} {k : Nat} (ok : Bool) (hk : k < c.n) (e1 : s.msgs = s0.msgs) (e2 : s.fl = s0.fl) (e3 : s.m = s0.m)
    (e4 : s.fe.autoq = s0.fe.autoq) (e5 : s.fe.disconnected = s0.fe.disconnected) (e6 : s.fe.finished = s0.fe.finished)
    (e7 : s.fe.states = s0.fe.states) (e8 : s.fe.retries = s0.fe.retries) (e9 : ∀ j, j ≠ k → s.fe.srcIn j = s0.fe.srcIn j)
    (e10 : ∀ j, j ≠ k → load s.t (.fetch j) = load s0.t (.fetch j))
    (hd : (3 - s0.fe.retries k) * attempt c + 8 ≤ stV c (s0.fe.states k) (s0.fe.srcIn k) (s0.fe.retries k) (load s0.t (.fetch k))) :
    wmu c (fetchCompleted s k ok).1 + 1 ≤ wmu c s0 := by
  have hj : ∀ j, j ≠ k → kV c (fetchCompleted s k ok).1 j = kV c s0 j := by
    intro j hj
    unfold kV fetchCompleted
    simp only [release_states, release_retries, release_srcIn, release_queue, release_finished]
    split
    · simp only [upd_ne _ _ hj, e7, e8, e9 j hj, e10 j hj, e2, e3]
    · split
      · simp only [upd_ne _ _ hj, e7, e8, e9 j hj, e10 j hj, e2, e3]
      · simp only [upd_ne _ _ hj, e7, e8, e9 j hj, e10 j hj, e2, e3]
  refine wmu_at hk hj ?_
  have hkV : kV c s0 k = stV c (s0.fe.states k) (s0.fe.srcIn k) (s0.fe.retries k) (load s0.t (.fetch k)) + updV (s0.fl.updates k) (load s0.m k) := rfl
  rw [hkV]
  generalize stV c (s0.fe.states k) (s0.fe.srcIn k) (s0.fe.retries k) (load s0.t (.fetch k)) = z at hd ⊢
  clear hkV
  unfold kV fetchCompleted base
  simp only [release_states, release_retries, release_srcIn, release_queue, release_finished, release_autoq, maxRetries]
  split
  · simp only [upd_same, stV, List.length_append, List.length_singleton, e1, e2, e3, e4, e6, release_disconnected, e5]
    omega
  · split
    · rename_i hr
      have hB : (3 - (s.fe.retries k + 1)) * attempt c + attempt c = (3 - s.fe.retries k) * attempt c := by
        have : 3 - s.fe.retries k = (3 - (s.fe.retries k + 1)) + 1 := by omega
        rw [this, Nat.succ_mul]
      rw [e8] at hB
      simp only [upd_same, stV, e1, e2, e3, e4, e6, e8, release_finished, release_autoq, release_disconnected, e5]
      omega
    · simp only [upd_same, stV, List.length_append, List.length_singleton, e1, e2, e3, e4, e6, release_autoq, release_disconnected, e5]
      omega

theorem fetchCompleted_gmu {Q : List Nat} {I : List (Nat × Nat)} {s0 s : Sys D} (k : Nat) (ok : Bool) (h1 : s.ch = s0.ch)
    (h2 : ∀ q id, load s.t (.guest q id) = load s0.t (.guest q id)) : gmu Q I (fetchCompleted s k ok).1 = gmu Q I s0 :=
  gmu_same ((fetchCompleted_rest s k ok).2.1.trans h1) fun q id => by rw [fetchCompleted_t]; exact h2 q id

theorem handleFetch_down {s0 s : Sys D} {k : Nat} (hk : k < c.n) (hb : base c s + (4 * c.ss + 32) = base c s0) (hv : ∀ j, kV c s j = kV c s0 j) :
    wmu c (handleFetch s k).1 + 1 ≤ wmu c s0 := by
  unfold handleFetch
  split
  · exact wmu_base hv (by simp only; omega)
  · split
    · exact wmu_base hv (by simp only; omega)
    · rename_i hns
      have hnone : s.fe.states k = none := by cases h : s.fe.states k <;> simp_all
      refine wmu_at hk (fun j hj => ?_) ?_
      · rw [← hv]; unfold kV; simp only [upd_ne _ _ hj]
      · have h1 : (3 - s.fe.retries k) * attempt c ≤ 3 * attempt c := Nat.mul_le_mul_right _ (by omega)
        have h2 : updV (s.fl.updates k) (load s.m k) = kV c s0 k := by rw [← hv k]; unfold kV; rw [hnone]; simp [stV]
        have h3 : base c { s with fe := { s.fe with queue := s.fe.queue ++ [k], states := upd s.fe.states k (some .queued) } } = base c s := rfl
        rw [h3]
        rw [← h2]
        unfold kV
        simp only [upd_same, stV]
        unfold attempt at h1 ⊢
        omega

theorem startFetch_down {Q : List Nat} {I : List (Nat × Nat)} {s s' : Sys D} {b : Bool} {ls : List (Lab D)} (hf : FetchInv c s)
    (h : startFetch c s b = some (s', ls)) : wmu c s' + 1 ≤ wmu c s ∧ gmu Q I s' = gmu Q I s := by
  unfold startFetch at h
  split at h
  · rename_i k q b' free hq hfr
    obtain ⟨-, -, hsi, hkd, hst⟩ := (hf.ok k).queued (by rw [hq]; simp)
    have hk : k < c.n := hf.bound k (by rw [hst]; simp)
    simp only at h
    split at h
    · simp only [Option.some.injEq, Prod.mk.injEq] at h
      obtain ⟨rfl, -⟩ := h
      refine ⟨wmu_at hk (fun j hj => ?_) ?_, gmu_same rfl fun _ _ => rfl⟩
      · unfold kV; simp only [upd_ne _ _ hj]
      · unfold kV base
        simp only [upd_same, stV, hst, if_true, attempt]
        omega
    · simp only [Option.some.injEq, Prod.mk.injEq] at h
      obtain ⟨rfl, -⟩ := h
      refine ⟨fetchCompleted_down false hk rfl rfl rfl rfl rfl rfl rfl rfl (fun _ _ => rfl) (fun _ _ => rfl) ?_,
        fetchCompleted_gmu k false rfl fun _ _ => rfl⟩
      simp only [hst, stV, attempt]
      omega
  · simp at h

theorem sourceDone_down {Q : List Nat} {I : List (Nat × Nat)} {s s' : Sys D} {k : Nat} {ok b : Bool} {g : Nat → D} {ls : List (Lab D)} (hf : FetchInv c s)
    (h : sourceDone c s k ok b g = some (s', ls)) : wmu c s' + 1 ≤ wmu c s ∧ gmu Q I s' = gmu Q I s := by
  unfold sourceDone at h
  split at h
  · rename_i hsi
    obtain ⟨-, hal, -, hkd, hst⟩ := (hf.ok k).src hsi
    have hk : k < c.n := hf.bound k (by rw [hst]; simp)
    have hd : (3 - s.fe.retries k) * attempt c + 8 ≤ stV c (s.fe.states k) (s.fe.srcIn k) (s.fe.retries k) (load s.t (.fetch k)) := by
      simp only [hst, hsi, stV, if_true]; omega
    simp only at h
    split at h
    · rename_i hn; exact absurd hn hal
    · split at h
      · split at h
        · simp only [Option.some.injEq, Prod.mk.injEq] at h
          obtain ⟨rfl, -⟩ := h
          refine ⟨wmu_at hk (fun j hj => ?_) ?_, gmu_same rfl fun _ _ => ?_⟩
          · unfold kV; simp only [upd_ne _ _ hj, load_issueWrite, Owner.fetch.injEq, hj, if_false]
          · have : stripeLen c k ≤ c.ss := Nat.min_le_left _ _
            unfold kV base
            simp only [upd_same, stV, hst, hsi, if_true, load_issueWrite, Bool.false_eq_true, if_false]
            omega
          · simp [load_issueWrite]
        · simp only [Option.some.injEq] at h
          replace h := (congrArg Prod.fst h).symm
          simp only at h
          rw [h]
          exact ⟨fetchCompleted_down false hk rfl rfl rfl rfl rfl rfl rfl rfl (fun j hj => upd_ne _ _ hj) (fun _ _ => rfl) hd,
            fetchCompleted_gmu k false rfl fun _ _ => rfl⟩
      · simp only [Option.some.injEq] at h
        replace h := (congrArg Prod.fst h).symm
        simp only at h
        rw [h]
        exact ⟨fetchCompleted_down false hk rfl rfl rfl rfl rfl rfl rfl rfl (fun j hj => upd_ne _ _ hj) (fun _ _ => rfl) hd,
          fetchCompleted_gmu k false rfl fun _ _ => rfl⟩
  · simp at h

theorem targetDone_down {Q : List Nat} {I : List (Nat × Nat)} {s : Sys D} {k : Nat} {ok : Bool} (b : Bool) (hf : FetchInv c s)
    (h : s.t.mayComplete (.fetch k) ok) :
    wmu c (targetDone s k ok b).1 + 1 ≤ wmu c s ∧ gmu Q I (targetDone s k ok b).1 = gmu Q I s := by
  have hop : s.t.ops (.fetch k) ≠ none := by obtain ⟨op, h, -⟩ := h; rw [h]; simp
  have hld := load_pos hop
  have hkd : s.t.kinds (.fetch k) ≠ none := fun e => hop (kinds_none.mp e)
  obtain ⟨-, -, -, hsi, hst⟩ := (hf.ok k).busy hkd
  have hk : k < c.n := hf.bound k (by rcases hst with ⟨h, -⟩ | ⟨h, -⟩ <;> rw [h] <;> simp)
  have hd : (3 - s.fe.retries k) * attempt c + 8 ≤ stV c (s.fe.states k) (s.fe.srcIn k) (s.fe.retries k) (load s.t (.fetch k)) := by
    rcases hst with ⟨h, -⟩ | ⟨h, -⟩ <;> simp only [h, hsi, stV, Bool.false_eq_true, if_false] <;> omega
  have hc : ∀ ok', wmu c (fetchCompleted { s with t := s.t.complete (.fetch k) ok } k ok').1 + 1 ≤ wmu c s ∧
      gmu Q I (fetchCompleted { s with t := s.t.complete (.fetch k) ok } k ok').1 = gmu Q I s := fun ok' =>
    ⟨fetchCompleted_down ok' hk rfl rfl rfl rfl rfl rfl rfl rfl (fun _ _ => rfl)
      (fun j hj => by simp only [load_complete, Owner.fetch.injEq, hj, if_false]) hd,
      fetchCompleted_gmu k ok' rfl fun _ _ => by simp [load_complete]⟩
  unfold targetDone
  simp only
  split
  · split
    · rename_i hs'
      split
      · refine ⟨wmu_at hk (fun j hj => ?_) ?_, gmu_same rfl fun _ _ => ?_⟩
        · unfold kV; simp only [upd_ne _ _ hj, load_issueFlush, load_complete, Owner.fetch.injEq, hj, if_false]
        · have hs'' : s.fe.states k = some .fetching := hs'
          unfold kV base
          simp only [upd_same, stV, hs'', hsi, Bool.false_eq_true, if_false]
          omega
        · simp [load_issueFlush, load_complete]
      · exact hc false
    · exact hc true
    · rename_i h1 h2
      exfalso
      rcases hst with ⟨h, -⟩ | ⟨h, -⟩
      · exact h1 h
      · exact h2 h
  · exact hc false

theorem startMeta_down {Q : List Nat} {I : List (Nat × Nat)} {s s' : Sys D} {b : Bool} {mv : Nat → Bytes} (hm : MetaInv c mv s)
    (h : startMeta s b = some s') : wmu c s' + 1 ≤ wmu c s ∧ gmu Q I s' = gmu Q I s := by
  obtain ⟨-, ht, hch, -, -⟩ := startMeta_frame h
  refine ⟨?_, gmu_same hch fun _ _ => by rw [ht]⟩
  unfold startMeta at h
  split at h
  · simp at h
  · rename_i k mask q hq
    have hk := (hm.queue k mask (by rw [hq]; simp)).1
    split at h
    · simp at h
    · split at h
      · simp at h
      · rename_i hbz
        have hu := free_sector hm hbz
        split at h
        · simp only [Option.some.injEq] at h; subst h
          refine wmu_base (fun _ => rfl) ?_
          unfold base; simp only [hq, List.length_cons]; omega
        · split at h
          · simp only [Option.some.injEq] at h; subst h
            refine wmu_at hk (fun j hj => ?_) ?_
            · unfold kV; simp only [upd_ne _ _ hj, load_issueWrite, hj, if_false]
            · unfold kV base
              simp only [upd_same, updV, load_issueWrite, if_true, hu, hq, List.length_cons]
              omega
          · simp only [Option.some.injEq] at h; subst h
            refine wmu_base (fun _ => rfl) ?_
            unfold base; simp only [hq, List.length_cons]; omega

theorem metaDone_down {Q : List Nat} {I : List (Nat × Nat)} {s : Sys D} {k : Nat} {ok : Bool} (b : Bool) {mv : Nat → Bytes} (hm : MetaInv c mv s)
    (h : s.m.mayComplete k ok) : wmu c (metaDone s k ok b) + 1 ≤ wmu c s ∧ gmu Q I (metaDone s k ok b) = gmu Q I s := by
  refine ⟨?_, gmu_same (by simp) fun _ _ => by simp⟩
  have hop : s.m.ops k ≠ none := by obtain ⟨op, h, -⟩ := h; rw [h]; simp
  have hld := load_pos hop
  cases hu : s.fl.updates k with
  | none => exact absurd (hm.noupd k hu) hop
  | some u =>
    have hk := (hm.upd k u hu).kn
    have key : ∀ s' : Sys D, s'.msgs = s.msgs → s'.fe = s.fe → s'.t = s.t → s'.fl.queue = s.fl.queue →
        (∀ j, j ≠ k → s'.fl.updates j = s.fl.updates j ∧ load s'.m j = load s.m j) →
        updV (s'.fl.updates k) (load s'.m k) + 1 ≤ updV (s.fl.updates k) (load s.m k) → wmu c s' + 1 ≤ wmu c s := by
      intro s' e1 e2 e3 e4 e5 e6
      refine wmu_at hk (fun j hj => ?_) ?_
      · unfold kV; rw [e2, e3, (e5 j hj).1, (e5 j hj).2]
      · unfold kV base; rw [e1, e2, e3, e4]; omega
    unfold metaDone
    simp only [hu]
    split
    · split
      · rename_i hst
        split
        · refine key _ rfl rfl rfl rfl (fun j hj => ?_) ?_
          · simp only [upd_ne _ _ hj, load_issueFlush, load_complete, hj, if_false, and_self]
          · simp only [upd_same, updV, hu, hst, if_true]
            simp
            omega
        · refine key _ rfl rfl rfl rfl (fun j hj => ?_) ?_
          · simp only [Flusher.revert, upd_ne _ _ hj, load_complete, hj, if_false, and_self]
          · simp only [Flusher.revert, upd_same, updV, hu]; split <;> omega
      · refine key _ rfl rfl rfl rfl (fun j hj => ?_) ?_
        · simp only [upd_ne _ _ hj, load_complete, hj, if_false, and_self]
        · simp only [upd_same, updV, hu]; split <;> omega
    · refine key _ rfl rfl rfl rfl (fun j hj => ?_) ?_
      · simp only [Flusher.revert, upd_ne _ _ hj, load_complete, hj, if_false, and_self]
      · simp only [Flusher.revert, upd_same, updV, hu]; split <;> omega

/-- Every step of the worker decreases the measure. -/
theorem worker_down (Q : List Nat) (I : List (Nat × Nat)) {s s' : Sys D} {l : List (Lab D)} {a : Act D} (hs : Sound c s) (h : Step c s a l s')
    (hg : a.isGuest = false) (hx : ∀ o x, a ≠ .execData o x) (hx' : ∀ k x, a ≠ .execMeta k x) :
    wmu c s' + gmu Q I s' + 1 ≤ wmu c s + gmu Q I s := by
  suffices wmu c s' + 1 ≤ wmu c s ∧ gmu Q I s' = gmu Q I s by omega
  obtain ⟨⟨⟨hdrs, mv, hb, hm⟩, hf⟩, -⟩ := hs
  cases h with
  | receiveFetch k ms hms =>
    refine ⟨handleFetch_down (hf.mbound k (by rw [hms]; simp)) ?_ fun _ => rfl,
      gmu_same (handleFetch_rest _ k).2.2.1 fun _ _ => by rw [handleFetch_t]⟩
    unfold base; simp only [hms, List.length_cons]
    rw [show ms.length + 1 + s.fe.autoq.length = ms.length + s.fe.autoq.length + 1 by omega, Nat.mul_succ]; omega
  | receiveWritten k ms hms =>
    refine ⟨wmu_base (fun _ => rfl) ?_, gmu_same rfl fun _ _ => rfl⟩
    unfold base; simp only [hms, List.length_cons, List.length_append, List.length_nil]
    rw [show ms.length + 1 + s.fe.autoq.length = ms.length + s.fe.autoq.length + 1 by omega, Nat.mul_succ (4 * c.ss + 32)]; omega
  | autofetch k ks ha hq hau =>
    refine ⟨handleFetch_down (hf.abound k (by rw [hau]; simp)) ?_ fun _ => rfl,
      gmu_same (handleFetch_rest _ k).2.2.1 fun _ _ => by rw [handleFetch_t]⟩
    unfold base; simp only [hau, List.length_cons]
    rw [← Nat.add_assoc s.msgs.length ks.length 1, Nat.mul_succ]; omega
  | startFetch b _ _ h => exact startFetch_down hf h
  | sourceDone k ok b g _ _ h => exact sourceDone_down hf h
  | targetDone k ok b h => exact targetDone_down b hf h
  | takeFinished k ok rest hfin =>
    refine ⟨wmu_base (fun _ => ?_) ?_, gmu_same rfl fun _ _ => rfl⟩
    · unfold kV; simp only; split <;> rfl
    · unfold base; simp only [hfin, List.length_cons]
      split
      · simp only [List.length_append, List.length_singleton]; omega
      · omega
  | startMeta b _ h => exact startMeta_down hm h
  | metaDone k ok b h => exact metaDone_down b hm h
  | disconnect hd hb hc =>
    refine ⟨wmu_base (fun _ => rfl) ?_, gmu_same rfl fun _ _ => rfl⟩
    unfold base; simp [hd]
  | execData o x => exact absurd rfl (hx o x)
  | execMeta k x => exact absurd rfl (hx' k x)
  | _ => simp [Act.isGuest] at hg

/-! ### Steps of the guest queues -/

/-- Every place that holds a request is counted. -/
def Supp (Q : List Nat) (I : List (Nat × Nat)) (s : Sys D) : Prop := ∀ q id, ¬ s.idFree q id → q ∈ Q ∧ (q, id) ∈ I

theorem gmu_at {Q : List Nat} {I : List (Nat × Nat)} (hQ : Q.Nodup) (hI : I.Nodup) {s s' : Sys D} {q id : Nat} (hq : q ∈ Q) (hi : (q, id) ∈ I)
    (h1 : ∀ q', q' ≠ q → chW (s'.ch q') = chW (s.ch q')) (h2 : ∀ p, p ≠ (q, id) → gW s' p = gW s p) :
    gmu Q I s' + (chW (s.ch q) + gW s (q, id)) = gmu Q I s + (chW (s'.ch q) + gW s' (q, id)) := by
  have e1 := lsum_one (f := fun q => chW (s.ch q)) (g := fun q => chW (s'.ch q)) hQ hq h1
  have e2 := lsum_one (f := gW s) (g := gW s') hI hi h2
  unfold gmu
  omega

theorem wmu_guest {s s' : Sys D} (h1 : s'.fe = s.fe) (h2 : s'.fl = s.fl) (h3 : s'.m = s.m)
    (h4 : ∀ j, load s'.t (.fetch j) = load s.t (.fetch j)) {n : Nat} (h5 : s'.msgs.length ≤ s.msgs.length + n) :
    wmu c s' ≤ wmu c s + (4 * c.ss + 32) * n := by
  have e := sumTo_congr (n := c.n) (f := kV c s') (g := kV c s) fun j _ => by unfold kV; rw [h1, h2, h3, h4]
  have hm : (4 * c.ss + 32) * (s'.msgs.length + s.fe.autoq.length) ≤
      (4 * c.ss + 32) * (s.msgs.length + s.fe.autoq.length) + (4 * c.ss + 32) * n := by
    rw [← Nat.mul_add]; exact Nat.mul_le_mul_left _ (by omega)
  unfold wmu base
  rw [e, h1, h2]
  omega

theorem toBase_load (s : Sys D) (q : Nat) (r : QReq D) (o : Owner) :
    load (toBase s q r).t o = if o = .guest q r.id then r.cnt + 1 else load s.t o := by
  unfold toBase
  split
  · exact load_issueRead _ _ _ _ _
  · exact load_issueWrite _ _ _ _ _ _

theorem gW_ne {s s' : Sys D} {q id : Nat} (h1 : ∀ o, o ≠ .guest q id → load s'.t o = load s.t o)
    (h2 : ∀ q' id', (q', id') ≠ (q, id) → (s'.ch q').img id' = (s.ch q').img id') (p : Nat × Nat) (hp : p ≠ (q, id)) : gW s' p = gW s p := by
  obtain ⟨q', id'⟩ := p
  unfold gW
  rw [h1 _ (by intro e; apply hp; simp_all), h2 q' id' hp]

theorem lsum_append {α : Type} (l l' : List α) (f : α → Nat) : lsum (l ++ l') f = lsum l f + lsum l' f := by
  unfold lsum; rw [List.map_append, List.sum_append]

theorem startFetches_len (sh : Shared) (ks : List Nat) (req : Nat → Bool) (ms : List Msg) :
    (startFetches sh ks req ms).2.length ≤ ms.length + ks.length := by
  induction ks generalizing req ms with
  | nil => simp [startFetches]
  | cons k ks ih =>
    unfold startFetches
    split
    · have := ih (upd req k true) (ms ++ [.fetch k])
      simp only [List.length_append, List.length_cons, List.length_nil] at this ⊢
      omega
    · have := ih req ms
      simp only [List.length_cons]
      omega

theorem startWritten_len (sh : Shared) (ks : List Nat) : (startWritten sh ks).length ≤ ks.length := by
  unfold startWritten; rw [List.length_map]; exact List.length_filter_le _ _

theorem stripes_len (hss : 0 < c.ss) (r : QReq D) (h : 0 < r.cnt) : (stripes c r).length ≤ r.cnt := by
  unfold stripes firstStripe lastStripe
  simp only [List.length_map, List.length_range]
  have h1 : (r.off + r.cnt - 1) / c.ss < r.off / c.ss + r.cnt := by
    rw [Nat.div_lt_iff_lt_mul hss, Nat.add_mul]
    have e1 : r.off < r.off / c.ss * c.ss + c.ss := by
      have := Nat.lt_mul_div_succ r.off hss
      rw [Nat.mul_add, Nat.mul_one, Nat.mul_comm] at this; exact this
    have e2 : (r.cnt - 1) * 1 ≤ (r.cnt - 1) * c.ss := Nat.mul_le_mul_left _ hss
    have e3 : r.cnt * c.ss = (r.cnt - 1) * c.ss + c.ss := by
      rw [← Nat.succ_mul]; congr 1; omega
    omega
  omega

/-- A request that is handed over adds no more than its cost. -/
theorem toBase_up {Q : List Nat} {I : List (Nat × Nat)} (hQ : Q.Nodup) (hI : I.Nodup) (s : Sys D) {q : Nat} (r : QReq D) (hq : q ∈ Q) (hi : (q, r.id) ∈ I) :
    wmu c (toBase s q r) + gmu Q I (toBase s q r) ≤ wmu c s + gmu Q I s + (r.cnt + 1) := by
  obtain ⟨f1, f2, -, f4, f5, f6⟩ := @toBase_frame D s q r
  have h1 : wmu c (toBase s q r) ≤ wmu c s + (4 * c.ss + 32) * 0 :=
    wmu_guest f1 f5 f4 (fun j => by rw [toBase_load, if_neg (by simp)]) (by rw [f2]; omega)
  have h2 := gmu_at hQ hI (s := s) (s' := toBase s q r) hq hi (fun q' _ => by rw [f6])
    (gW_ne (fun o ho => by rw [toBase_load, if_neg ho]) (fun q' id' _ => by rw [f6]))
  have h3 : gW (toBase s q r) (q, r.id) ≤ gW s (q, r.id) + (r.cnt + 1) := by
    unfold gW
    simp only [toBase_load, if_true, f6]
    omega
  rw [f6] at h2
  omega

theorem finishFalse_up {Q : List Nat} {I : List (Nat × Nat)} (hQ : Q.Nodup) (hI : I.Nodup) (s : Sys D) {q id : Nat} (hq : q ∈ Q) (hi : (q, id) ∈ I) :
    wmu c (finishFalse s q id) + gmu Q I (finishFalse s q id) ≤ wmu c s + gmu Q I s + 1 := by
  have h1 : wmu c (finishFalse s q id) ≤ wmu c s + (4 * c.ss + 32) * 0 := wmu_guest rfl rfl rfl (fun _ => rfl) (Nat.le_refl _)
  have hc : ∀ q', (finishFalse s q id).ch q' = if q' = q then { s.ch q with finished := (s.ch q).finished ++ [(id, false)] } else s.ch q' := by
    intro q'; unfold finishFalse; rw [setCh_ch]
  have himg : ∀ q' id', ((finishFalse s q id).ch q').img id' = (s.ch q').img id' := by
    intro q' id'; rw [hc]; split
    · rename_i h; rw [h]
    · rfl
  have h2 := gmu_at hQ hI (s := s) (s' := finishFalse s q id) hq hi (fun q' h => by rw [hc, if_neg h])
    (gW_ne (fun _ _ => rfl) (fun q' id' _ => himg q' id'))
  have h3 : gW (finishFalse s q id) (q, id) = gW s (q, id) := by unfold gW; simp only [himg]; rfl
  have h4 : chW ((finishFalse s q id).ch q) = chW (s.ch q) + 1 := by
    rw [hc, if_pos rfl]; unfold chW; simp only [List.length_append, List.length_singleton]; omega
  omega

theorem enqueueReq_up {Q : List Nat} {I : List (Nat × Nat)} (hQ : Q.Nodup) (hI : I.Nodup) (hss : 0 < c.ss) (s : Sys D) {q : Nat} (r : QReq D) (b : Bool)
    (hq : q ∈ Q) (hi : (q, r.id) ∈ I) (hr : 0 < r.cnt) :
    wmu c (enqueueReq c s q r b).1 + gmu Q I (enqueueReq c s q r b).1 ≤ wmu c s + gmu Q I s + ((8 * c.ss + 65) * r.cnt + 2) := by
  unfold enqueueReq
  split
  · simp only
    have hl := stripes_len hss r hr
    have h1l := startFetches_len s.sh (stripes c r) (s.ch q).requested []
    have h2l := startWritten_len s.sh (stripes c r)
    generalize (startFetches s.sh (stripes c r) (s.ch q).requested []).1 = req
    generalize (startFetches s.sh (stripes c r) (s.ch q).requested []).2 = ms at h1l ⊢
    have hml : (if c.track && r.out.isSome then ms ++ startWritten s.sh (stripes c r) else ms).length ≤ 2 * r.cnt := by
      simp only [List.length_nil] at h1l
      split
      · rw [List.length_append]; omega
      · omega
    generalize (if c.track && r.out.isSome then ms ++ startWritten s.sh (stripes c r) else ms) = ms' at hml ⊢
    obtain ⟨s', e, g1, g2, g3, g4, g5, g6⟩ : ∃ s' : Sys D,
        { s.setCh q (fun ch => { ch with requested := req, queue := ch.queue ++ [r] }) with msgs := s.msgs ++ ms' } = s' ∧
        s'.fe = s.fe ∧ s'.fl = s.fl ∧ s'.m = s.m ∧ s'.t = s.t ∧ s'.msgs = s.msgs ++ ms' ∧
        s'.ch = (s.setCh q (fun ch => { ch with requested := req, queue := ch.queue ++ [r] })).ch :=
      ⟨_, rfl, rfl, rfl, rfl, rfl, rfl, rfl⟩
    rw [e]
    have h1 : wmu c s' ≤ wmu c s + (4 * c.ss + 32) * (2 * r.cnt) :=
      wmu_guest g1 g2 g3 (fun _ => by rw [g4]) (by rw [g5, List.length_append]; omega)
    have hc : ∀ q', s'.ch q' = if q' = q then { s.ch q with requested := req, queue := (s.ch q).queue ++ [r] } else s.ch q' := by
      intro q'; rw [g6, setCh_ch]
    have himg : ∀ q' id', (s'.ch q').img id' = (s.ch q').img id' := by
      intro q' id'; rw [hc]; split
      · rename_i h; rw [h]
      · rfl
    have h2 := gmu_at hQ hI (s := s) (s' := s') hq hi (fun q' h => by rw [hc, if_neg h])
      (gW_ne (fun _ _ => by rw [g4]) (fun q' id' _ => himg q' id'))
    have h3 : gW s' (q, r.id) = gW s (q, r.id) := by unfold gW; simp only [himg, g4]
    have h4 : chW (s'.ch q) = chW (s.ch q) + (r.cnt + 2) := by
      rw [hc, if_pos rfl]
      unfold chW
      simp only [lsum_append]
      have : lsum [r] (fun r => r.cnt + 2) = r.cnt + 2 := by simp [lsum]
      omega
    have e1 : (8 * c.ss + 65) * r.cnt = (4 * c.ss + 32) * (2 * r.cnt) + r.cnt := by
      rw [← Nat.mul_assoc, show 8 * c.ss + 65 = (4 * c.ss + 32) * 2 + 1 by omega, Nat.succ_mul]
    omega
  · have := finishFalse_up (c := c) hQ hI s (id := r.id) hq hi
    have h2 : 1 ≤ (8 * c.ss + 65) * r.cnt := Nat.mul_pos (by omega) hr
    simp only
    omega

theorem addRead_up {Q : List Nat} {I : List (Nat × Nat)} (hQ : Q.Nodup) (hI : I.Nodup) (hss : 0 < c.ss) (s : Sys D) {q id off cnt : Nat} (b : Bool)
    (hq : q ∈ Q) (hi : (q, id) ∈ I) (hr : 0 < cnt) :
    wmu c (addRead c s q id off cnt b).1 + gmu Q I (addRead c s q id off cnt b).1 ≤ wmu c s + gmu Q I s + ((8 * c.ss + 65) * cnt + 2) := by
  have hm : cnt ≤ (8 * c.ss + 65) * cnt := Nat.le_mul_of_pos_left _ (by omega)
  unfold addRead
  simp only
  split
  · have := toBase_up (c := c) hQ hI s { id, off, cnt, out := none } hq hi
    simp only at this ⊢
    omega
  · have := finishFalse_up (c := c) hQ hI s hq hi
    simp only at this ⊢
    omega
  · split
    · obtain ⟨s', e, g1, g2, g3, g4, g5, g6⟩ : ∃ s' : Sys D,
          (s.setCh q fun ch => { ch with img := upd ch.img id (some (off, cnt)) }) = s' ∧
          s'.fe = s.fe ∧ s'.fl = s.fl ∧ s'.m = s.m ∧ s'.t = s.t ∧ s'.msgs = s.msgs ∧
          s'.ch = (s.setCh q (fun ch => { ch with img := upd ch.img id (some (off, cnt)) })).ch :=
        ⟨_, rfl, rfl, rfl, rfl, rfl, rfl, rfl⟩
      simp only [e]
      have h1 : wmu c s' ≤ wmu c s + (4 * c.ss + 32) * 0 := wmu_guest g1 g2 g3 (fun _ => by rw [g4]) (by rw [g5]; omega)
      have hc : ∀ q', s'.ch q' = if q' = q then { s.ch q with img := upd (s.ch q).img id (some (off, cnt)) } else s.ch q' := by
        intro q'; rw [g6, setCh_ch]
      have hw : ∀ q', chW (s'.ch q') = chW (s.ch q') := by
        intro q'; rw [hc]; split
        · rename_i h; rw [h]; rfl
        · rfl
      have h2 := gmu_at hQ hI (s := s) (s' := s') hq hi (fun q' _ => hw q')
        (gW_ne (fun _ _ => by rw [g4]) (fun q' id' hne => by
          rw [hc]; split
          · rename_i h; subst h
            simp only
            rw [upd_ne _ _ (fun e => hne (by rw [e]))]
          · rfl))
      have h3 : gW s' (q, id) ≤ gW s (q, id) + 1 := by unfold gW; rw [g4]; simp only; split <;> split <;> omega
      rw [hw] at h2
      omega
    · exact enqueueReq_up hQ hI hss s { id, off, cnt, out := none } b hq hi hr

theorem addWrite_up {Q : List Nat} {I : List (Nat × Nat)} (hQ : Q.Nodup) (hI : I.Nodup) (hss : 0 < c.ss) (s : Sys D) {q id off cnt : Nat} (data : Nat → D) (b : Bool)
    (hq : q ∈ Q) (hi : (q, id) ∈ I) (hr : 0 < cnt) :
    wmu c (addWrite c s q id off cnt data b).1 + gmu Q I (addWrite c s q id off cnt data b).1 ≤ wmu c s + gmu Q I s + ((8 * c.ss + 65) * cnt + 2) := by
  have hm : cnt ≤ (8 * c.ss + 65) * cnt := Nat.le_mul_of_pos_left _ (by omega)
  unfold addWrite
  simp only
  split
  · have := finishFalse_up (c := c) hQ hI s hq hi
    simp only at this ⊢
    omega
  · split
    · have := toBase_up (c := c) hQ hI s { id, off, cnt, out := some data } hq hi
      simp only at this ⊢
      omega
    · exact enqueueReq_up hQ hI hss s { id, off, cnt, out := some data } b hq hi hr
  · exact enqueueReq_up hQ hI hss s { id, off, cnt, out := some data } b hq hi hr

/-- Replacing a channel with less in it, the image part being the same. -/
theorem setCh_down {Q : List Nat} {I : List (Nat × Nat)} (hQ : Q.Nodup) (hI : I.Nodup) (s : Sys D) {q id : Nat} (hq : q ∈ Q) (hi : (q, id) ∈ I)
    {f : Chan D → Chan D} (himg : (f (s.ch q)).img = (s.ch q).img) {n : Nat} (hn : chW (f (s.ch q)) + n = chW (s.ch q)) :
    wmu c (s.setCh q f) + gmu Q I (s.setCh q f) + n ≤ wmu c s + gmu Q I s := by
  have h1 : wmu c (s.setCh q f) ≤ wmu c s + (4 * c.ss + 32) * 0 := wmu_guest rfl rfl rfl (fun _ => rfl) (Nat.le_refl _)
  have himg' : ∀ q' id', ((s.setCh q f).ch q').img id' = (s.ch q').img id' := by
    intro q' id'; rw [setCh_ch]; split
    · rename_i h; rw [h, himg]
    · rfl
  have h2 := gmu_at hQ hI (s := s) (s' := s.setCh q f) hq hi (fun q' h => by rw [setCh_ch, if_neg h])
    (gW_ne (fun _ _ => rfl) (fun q' id' _ => himg' q' id'))
  have h3 : gW (s.setCh q f) (q, id) = gW s (q, id) := by unfold gW; simp only [himg']; rfl
  rw [setCh_ch, if_pos rfl] at h2
  omega

theorem processQueue_down {Q : List Nat} {I : List (Nat × Nat)} (hQ : Q.Nodup) (hI : I.Nodup) {s s' : Sys D} (hsup : Supp Q I s) {q : Nat} {b : Bool}
    {ls : List (Lab D)} (h : processQueue c s q b = some (s', ls)) :
    wmu c s' + gmu Q I s' + 1 ≤ wmu c s + gmu Q I s ∧ visible ls = [] := by
  unfold processQueue at h
  split at h
  · simp at h
  · rename_i r rest hqq
    have hr : r ∈ (s.ch q).queue := by rw [hqq]; simp
    obtain ⟨hq, hi⟩ := hsup q r.id fun hf => hf.2.2.1 r hr rfl
    have hcq : chW (s.ch q) = lsum rest (fun r => r.cnt + 2) + (s.ch q).finished.length + (r.cnt + 2) := by
      unfold chW; rw [hqq]
      simp only [lsum, List.map_cons, List.sum_cons]
      omega
    split at h
    · simp at h
    · simp only [Option.some.injEq, Prod.mk.injEq] at h
      obtain ⟨rfl, rfl⟩ := h
      refine ⟨?_, rfl⟩
      have h1 := setCh_down (c := c) hQ hI s hq hi (f := fun ch => { ch with queue := rest }) (n := r.cnt + 2) rfl (by rw [hcq]; rfl)
      have h2 := finishFalse_up (c := c) hQ hI (s.setCh q fun ch => { ch with queue := rest }) hq hi
      omega
    · split at h
      · simp at h
      · have h1 := setCh_down (c := c) hQ hI s hq hi
          (f := fun ch => { ch with queue := rest, requested := fun k => ch.requested k && !(stripes c r).contains k }) (n := r.cnt + 2) rfl (by rw [hcq]; rfl)
        simp only at h
        split at h
        · simp only [Option.some.injEq, Prod.mk.injEq] at h
          obtain ⟨rfl, rfl⟩ := h
          refine ⟨?_, rfl⟩
          have h2 := toBase_up (c := c) hQ hI (s.setCh q fun ch => { ch with queue := rest, requested := fun k => ch.requested k && !(stripes c r).contains k }) r hq hi
          omega
        · simp only [Option.some.injEq, Prod.mk.injEq] at h
          obtain ⟨rfl, rfl⟩ := h
          refine ⟨?_, rfl⟩
          have h2 := finishFalse_up (c := c) hQ hI (s.setCh q fun ch => { ch with queue := rest, requested := fun k => ch.requested k && !(stripes c r).contains k }) hq hi
          omega

theorem guest_down {Q : List Nat} {I : List (Nat × Nat)} (hQ : Q.Nodup) (hI : I.Nodup) (hss : 0 < c.ss) {s s' : Sys D} (hsup : Supp Q I s) {a : Act D}
    {l : List (Lab D)} (hcov : ∀ q id r, Ev.issue q id r ∈ visible l → q ∈ Q ∧ (q, id) ∈ I) (h : Step c s a l s') (hg : a.isGuest = true) :
    wmu c s' + gmu Q I s' + 1 ≤ wmu c s + gmu Q I s + effort c (visible l) := by
  cases h with
  | read q id off cnt b hv _ hid =>
    obtain ⟨hq, hi⟩ := hcov q id (.read off cnt) (by simp [visible])
    have := addRead_up hQ hI hss s (off := off) b hq hi hv.1
    simp only [visible, effort, Req.effort]
    omega
  | write q id off cnt data b hv hid =>
    obtain ⟨hq, hi⟩ := hcov q id (.write off cnt data) (by simp [visible])
    have := addWrite_up hQ hI hss s (off := off) data b hq hi hv.1
    simp only [visible, effort, Req.effort]
    omega
  | flush q id hid =>
    obtain ⟨hq, hi⟩ := hcov q id .flush (by simp [visible])
    have h1 : wmu c { s with t := s.t.issueFlush (.guest q id) } ≤ wmu c s + (4 * c.ss + 32) * 0 :=
      wmu_guest rfl rfl rfl (fun _ => by simp [load_issueFlush]) (Nat.le_refl _)
    have h2 := gmu_at hQ hI (s := s) (s' := { s with t := s.t.issueFlush (.guest q id) }) hq hi (fun _ _ => rfl)
      (gW_ne (fun o ho => by simp only [load_issueFlush, ho, if_false]) (fun _ _ _ => rfl))
    have h3 : gW { s with t := s.t.issueFlush (.guest q id) } (q, id) ≤ gW s (q, id) + 1 := by
      unfold gW; simp only [load_issueFlush, if_true]; omega
    simp only [visible, effort, Req.effort]
    simp only at h2
    omega
  | processQueue q b _ _ h =>
    have := (processQueue_down hQ hI hsup h).1
    omega
  | reportFinished q id ok rest hfin =>
    obtain ⟨hq, hi⟩ := hsup q id fun hf => hf.2.2.2 (id, ok) (by rw [hfin]; simp) rfl
    have := setCh_down (c := c) hQ hI s hq hi (f := fun ch => { ch with finished := rest }) (n := 1) rfl
      (by unfold chW; simp only [hfin, List.length_cons]; omega)
    omega
  | baseDone q id ok h =>
    have hop : s.t.ops (.guest q id) ≠ none := by obtain ⟨op, h, -⟩ := h; rw [h]; simp
    obtain ⟨hq, hi⟩ := hsup q id fun hf => hop hf.1
    have h1 : wmu c { s with t := s.t.complete (.guest q id) ok } ≤ wmu c s + (4 * c.ss + 32) * 0 :=
      wmu_guest rfl rfl rfl (fun _ => by simp [load_complete]) (Nat.le_refl _)
    have h2 := gmu_at hQ hI (s := s) (s' := { s with t := s.t.complete (.guest q id) ok }) hq hi (fun _ _ => rfl)
      (gW_ne (fun o ho => by simp only [load_complete, ho, if_false]) (fun _ _ _ => rfl))
    have hld := load_pos hop
    have h3 : gW { s with t := s.t.complete (.guest q id) ok } (q, id) + 1 ≤ gW s (q, id) := by
      unfold gW; simp only [load_complete, if_true]; omega
    simp only at h2
    omega
  | imageDone q id ok off cnt himg =>
    obtain ⟨hq, hi⟩ := hsup q id fun hf => by rw [hf.2.1] at himg; simp at himg
    obtain ⟨s', e, g1, g2, g3, g4, g5, g6⟩ : ∃ s' : Sys D,
        (s.setCh q fun ch => { ch with img := upd ch.img id none }) = s' ∧
        s'.fe = s.fe ∧ s'.fl = s.fl ∧ s'.m = s.m ∧ s'.t = s.t ∧ s'.msgs = s.msgs ∧
        s'.ch = (s.setCh q (fun ch => { ch with img := upd ch.img id none })).ch :=
      ⟨_, rfl, rfl, rfl, rfl, rfl, rfl, rfl⟩
    rw [e]
    have h1 : wmu c s' ≤ wmu c s + (4 * c.ss + 32) * 0 := wmu_guest g1 g2 g3 (fun _ => by rw [g4]) (by rw [g5]; omega)
    have hc : ∀ q', s'.ch q' = if q' = q then { s.ch q with img := upd (s.ch q).img id none } else s.ch q' := by
      intro q'; rw [g6, setCh_ch]
    have hw : ∀ q', chW (s'.ch q') = chW (s.ch q') := by
      intro q'; rw [hc]; split
      · rename_i h; rw [h]; rfl
      · rfl
    have h2 := gmu_at hQ hI (s := s) (s' := s') hq hi (fun q' _ => hw q')
      (gW_ne (fun _ _ => by rw [g4]) (fun q' id' hne => by
        rw [hc]; split
        · rename_i h; subst h
          simp only
          rw [upd_ne _ _ (fun e => hne (by rw [e]))]
        · rfl))
    have h3 : gW s' (q, id) + 1 = gW s (q, id) := by
      unfold gW; rw [g4]; simp only [himg, hc, if_true, upd_same]; simp
    rw [hw] at h2
    omega
  | _ => simp [Act.isGuest] at hg

/-! ### Useful transfers -/

theorem execData_down {Q : List Nat} {I : List (Nat × Nat)} (hQ : Q.Nodup) (hI : I.Nodup) {s : Sys D} (hs : Sound c s) (hsup : Supp Q I s) {o : Owner}
    {x : Nat} {op : Op D} (h : s.t.ops o = some op) (hx : op.missing x) :
    wmu c { s with t := s.t.exec o x } + gmu Q I { s with t := s.t.exec o x } + 1 ≤ wmu c s + gmu Q I s := by
  have hld := load_exec_useful h hx
  cases o with
  | guest q id =>
    obtain ⟨hq, hi⟩ := hsup q id fun hf => by rw [hf.1] at h; simp at h
    have h1 : wmu c { s with t := s.t.exec (.guest q id) x } ≤ wmu c s + (4 * c.ss + 32) * 0 :=
      wmu_guest (s := s) (s' := { s with t := s.t.exec (.guest q id) x }) rfl rfl rfl (fun j => load_exec_ne s.t (o := .guest q id) (o' := .fetch j) x (by simp)) (Nat.le_refl _)
    have h2 := gmu_at hQ hI (s := s) (s' := { s with t := s.t.exec (.guest q id) x }) hq hi (fun _ _ => rfl)
      (gW_ne (fun o ho => load_exec_ne _ _ ho) (fun _ _ _ => rfl))
    have h3 : gW { s with t := s.t.exec (.guest q id) x } (q, id) + 1 ≤ gW s (q, id) := by
      unfold gW; simp only; omega
    simp only at h2
    omega
  | fetch k =>
    obtain ⟨⟨-, hf⟩, -⟩ := hs
    have hkd : s.t.kinds (.fetch k) ≠ none := fun e => by rw [kinds_none.mp e] at h; simp at h
    obtain ⟨-, -, -, hsi, hst⟩ := (hf.ok k).busy hkd
    have hst' : s.fe.states k = some .fetching := by
      rcases hst with ⟨h1, -⟩ | ⟨-, h1⟩
      · exact h1
      · exfalso
        unfold Dev.kinds at h1
        rw [h] at h1
        cases op with
        | flush snap => exact hx
        | read => simp [Op.kind] at h1
        | write => simp [Op.kind] at h1
    have hk : k < c.n := hf.bound k (by rw [hst']; simp)
    have h1 : wmu c { s with t := s.t.exec (.fetch k) x } + 1 ≤ wmu c s := by
      refine wmu_at hk (fun j hj => ?_) ?_
      · unfold kV; simp only; rw [load_exec_ne _ _ (by simpa using hj)]
      · unfold kV base
        simp only [hst', hsi, stV, Bool.false_eq_true, if_false]
        omega
    have h2 : gmu Q I { s with t := s.t.exec (.fetch k) x } = gmu Q I s := gmu_same rfl fun _ _ => load_exec_ne _ _ (by simp)
    omega

theorem execMeta_down {Q : List Nat} {I : List (Nat × Nat)} {s : Sys D} (hs : Sound c s) {k : Nat} {x : Nat} {op : Op Bytes} (h : s.m.ops k = some op)
    (hx : op.missing x) :
    wmu c { s with m := s.m.exec k x } + gmu Q I { s with m := s.m.exec k x } + 1 ≤ wmu c s + gmu Q I s := by
  have hld := load_exec_useful h hx
  obtain ⟨⟨⟨hdrs, mv, hb, hm⟩, -⟩, -⟩ := hs
  cases hu : s.fl.updates k with
  | none => rw [hm.noupd k hu] at h; simp at h
  | some u =>
    have huk := hm.upd k u hu
    have hst : u.stage = .writing := by
      cases hst : u.stage with
      | writing => rfl
      | flushing =>
        exfalso
        have := huk.stage
        unfold StageOk at this
        simp only [hst] at this
        obtain ⟨snap, h1, -⟩ := this
        rw [h] at h1
        simp only [Option.some.injEq] at h1
        subst h1
        exact hx
    have h1 : wmu c { s with m := s.m.exec k x } + 1 ≤ wmu c s := by
      refine wmu_at huk.kn (fun j hj => ?_) ?_
      · unfold kV; simp only; rw [load_exec_ne _ _ hj]
      · unfold kV base
        simp only [hu, updV, hst, if_true]
        omega
    have h2 : gmu Q I { s with m := s.m.exec k x } = gmu Q I s := gmu_same rfl fun _ _ => rfl
    omega

/-! ### Runs -/

theorem effort_append (es es' : List (Ev D)) : effort c (es ++ es') = effort c es + effort c es' := by
  induction es with
  | nil => simp [effort]
  | cons e es ih => cases e <;> simp [effort, ih, Nat.add_assoc]

/-- A useful step decreases the measure, up to what the guest adds. -/
theorem useful_down {Q : List Nat} {I : List (Nat × Nat)} (hQ : Q.Nodup) (hI : I.Nodup) {s s' : Sys D} (hs : Sound c s) (hsup : Supp Q I s) {a : Act D}
    {l : List (Lab D)} (hcov : ∀ q id r, Ev.issue q id r ∈ visible l → q ∈ Q ∧ (q, id) ∈ I) (h : Step c s a l s') (hu : a.useful s) :
    wmu c s' + gmu Q I s' + 1 ≤ wmu c s + gmu Q I s + effort c (visible l) := by
  by_cases hg : a.isGuest = true
  · have hss : 0 < c.ss := by obtain ⟨⟨⟨hdrs, mv, hb, hm⟩, -⟩, -⟩ := hs; exact hb.ss
    exact guest_down hQ hI hss hsup hcov h hg
  · have hg : a.isGuest = false := by simpa using hg
    by_cases h1 : ∃ o x, a = .execData o x
    · obtain ⟨o, x, rfl⟩ := h1
      obtain ⟨op, h1, h2⟩ := hu
      cases h
      have := execData_down hQ hI hs hsup h1 h2
      omega
    · by_cases h2 : ∃ k x, a = .execMeta k x
      · obtain ⟨k, x, rfl⟩ := h2
        obtain ⟨op, h1, h2⟩ := hu
        cases h
        have := execMeta_down (Q := Q) (I := I) hs h1 h2
        omega
      · have := worker_down Q I hs h hg (fun o x e => h1 ⟨o, x, e⟩) (fun k x e => h2 ⟨k, x, e⟩)
        omega

theorem idle_down (Q : List Nat) (I : List (Nat × Nat)) {s s' : Sys D} {a : Act D} {l : List (Lab D)} (h : Step c s a l s') (hu : ¬ a.useful s) :
    wmu c s' + gmu Q I s' ≤ wmu c s + gmu Q I s ∧ l = [] := by
  cases h with
  | execData o x => exact ⟨execData_le Q I s o x, rfl⟩
  | execMeta k x => exact ⟨execMeta_le Q I s k x, rfl⟩
  | _ => exact absurd trivial hu

theorem exists_nodup {α : Type} (l : List α) : ∃ l' : List α, l'.Nodup ∧ ∀ a ∈ l, a ∈ l' := by
  induction l with
  | nil => exact ⟨[], by simp, by simp⟩
  | cons a l ih =>
    obtain ⟨l', h1, h2⟩ := ih
    by_cases ha : a ∈ l'
    · refine ⟨l', h1, fun b hb => ?_⟩
      rcases List.mem_cons.mp hb with rfl | hb
      · exact ha
      · exact h2 b hb
    · refine ⟨a :: l', List.nodup_cons.mpr ⟨ha, h1⟩, fun b hb => ?_⟩
      rcases List.mem_cons.mp hb with rfl | hb
      · simp
      · simp [h2 b hb]

theorem Counted.run {s s' : Sys D} {n : Nat} {ls : List (Lab D)} (h : Counted c s n ls s') : Run c s ls s' := by
  induction h with
  | nil => exact .nil _
  | useful _ hst _ ih => exact .step ih hst
  | idle _ hst _ ih => exact .step ih hst

/-- The plain disk holds only what was issued. -/
theorem ops_issued {d d' : Disk D} {es : List (Ev D)} (h : Disk.Run d es d') {o : Nat × Nat} (h0 : d.ops o = none) (h1 : d'.ops o ≠ none) :
    ∃ r, Ev.issue o.1 o.2 r ∈ es := by
  refine Classical.byContradiction fun hn => h1 ?_
  have hi : ∀ r, Ev.issue o.1 o.2 r ∉ es := fun r hr => hn ⟨r, hr⟩
  refine h.inv (fun d => d.ops o = none) h0 fun d1 es1 d2 hs he hd => ?_
  cases hs with
  | issue q id r hn =>
    have hne : o ≠ (q, id) := by
      rintro rfl
      exact hi r (he _ (List.mem_singleton_self _))
    cases r <;> simp [Disk.issue, Dev.issueRead, Dev.issueWrite, Dev.issueFlush, upd, hne, hd]
  | exec o' x => exact kinds_none.mp (by rw [kinds_exec]; exact kinds_none.mpr hd)
  | respond q id ok hm => by_cases h : o = (q, id) <;> simp [Dev.complete, upd, h, hd]
  | crash v hv => rfl

/-- Whatever is held was issued. -/
theorem held_issued {hdrs : Bytes} {tv : Nat → D} {mv : Nat → Bytes} {b0 : Nat → Nat → D} {s : Sys D} {ls : List (Lab D)} (hb : Bootable c hdrs mv)
    (h : Run c (Sys.boot c hdrs tv mv b0) ls s) {q id : Nat} (hf : ¬ s.idFree q id) : ∃ r, Ev.issue q id r ∈ visible ls := by
  obtain ⟨-, hfam⟩ := run_sim hb rfl h
  obtain ⟨gg, ab, hpin, hd, hsim⟩ := hfam.sim
  refine ops_issued (o := (q, id)) hd rfl fun hn => hf ?_
  refine ⟨?_, ?_, fun r hr he => ?_, fun p hp he => ?_⟩
  · cases ho : s.t.ops (.guest q id) with
    | none => rfl
    | some op =>
      exfalso
      have := hsim.gop q id op ho
      cases op with
      | flush snap => obtain ⟨_, h1, -⟩ := this; rw [hn] at h1; simp at h1
      | read off cnt got => rw [this.1] at hn; simp at hn
      | write off cnt data done => rw [this.1] at hn; simp at hn
  · cases ho : (s.ch q).img id with
    | none => rfl
    | some p =>
      exfalso
      obtain ⟨off, cnt⟩ := p
      obtain ⟨_, h1, -⟩ := hsim.img q id off cnt ho
      rw [hn] at h1; simp at h1
  · have := (hsim.queue q r hr).2
    rw [he, hn] at this; simp at this
  · obtain ⟨i, ok⟩ := p
    subst he
    exact (hsim.fin q i ok hp).2 hn

def issues : List (Ev D) → List (Nat × Nat)
  | [] => []
  | .issue q id _ :: es => (q, id) :: issues es
  | _ :: es => issues es

theorem mem_issues {q id : Nat} {r : Req D} {es : List (Ev D)} (h : Ev.issue q id r ∈ es) : (q, id) ∈ issues es := by
  induction es with
  | nil => simp at h
  | cons e es ih =>
    rcases List.mem_cons.mp h with rfl | h'
    · simp [issues]
    · cases e <;> simp [issues, ih h']

theorem counted_bound {hdrs hdrs' : Bytes} {tv tv' : Nat → D} {mv mv' : Nat → Bytes} {b0 b0' : Nat → Nat → D} (hb : Bootable c hdrs mv)
    {l1 : List (Lab D)} (h1 : Run c (Sys.boot c hdrs tv mv b0) l1 (Sys.boot c hdrs' tv' mv' b0')) {Q : List Nat} {I : List (Nat × Nat)}
    (hQ : Q.Nodup) (hI : I.Nodup) {s0 s : Sys D} (e0 : s0 = Sys.boot c hdrs' tv' mv' b0') {n : Nat} {ls : List (Lab D)} (h : Counted c s0 n ls s)
    (hcov : ∀ q id r, Ev.issue q id r ∈ visible (l1 ++ ls) → q ∈ Q ∧ (q, id) ∈ I) :
    n + (wmu c s + gmu Q I s) ≤ (4 * c.ss + 32) * c.srcStripes + 1 + effort c (visible ls) := by
  induction h with
  | nil =>
    subst e0
    have e1 : sumTo c.n (kV c (Sys.boot c hdrs' tv' mv' b0')) = 0 := by
      have : sumTo c.n (kV c (Sys.boot c hdrs' tv' mv' b0')) = sumTo c.n (fun _ => 0) := sumTo_congr fun _ _ => rfl
      rw [this]; exact lsum_zero (List.range c.n)
    have e2 : gmu Q I (Sys.boot c hdrs' tv' mv' b0') = 0 := by
      unfold gmu
      have a1 : lsum Q (fun q => chW ((Sys.boot c hdrs' tv' mv' b0').ch q)) = lsum Q (fun _ => 0) := lsum_congr fun _ _ => rfl
      have a2 : lsum I (gW (Sys.boot c hdrs' tv' mv' b0')) = lsum I (fun _ => 0) := lsum_congr fun _ _ => rfl
      rw [a1, a2, lsum_zero, lsum_zero]
    unfold wmu
    rw [e1, e2]
    unfold base Sys.boot
    simp only
    split <;> simp [visible, effort]
  | @useful s' s'' n ls ls' a hc hst hu ih =>
    have hrun : Run c (Sys.boot c hdrs tv mv b0) (l1 ++ ls) s' := h1.trans (e0 ▸ hc.run)
    have hs : Sound c s' := (Sound.boot hb).run hrun
    have hsup : Supp Q I s' := fun q id hf => by
      obtain ⟨r, hr⟩ := held_issued hb hrun hf
      refine hcov q id r ?_
      rw [← List.append_assoc, visible_append]; exact List.mem_append_left _ hr
    have hd := useful_down hQ hI hs hsup (fun q id r hr => hcov q id r (by
      rw [← List.append_assoc, visible_append]; exact List.mem_append_right _ hr)) hst hu
    have := ih fun q id r hr => hcov q id r (by
      rw [← List.append_assoc, visible_append]; exact List.mem_append_left _ hr)
    rw [visible_append, effort_append]
    omega
  | @idle s' s'' n ls ls' a hc hst hu ih =>
    obtain ⟨hd, rfl⟩ := idle_down Q I hst hu
    have := ih fun q id r hr => hcov q id r (by simpa using hr)
    simp only [List.append_nil]
    omega

/-! ### Rest -/

theorem Resting.t {s : Sys D} (h : Resting c s) : (∀ q id, s.t.ops (.guest q id) = none) ∧ ∀ k, s.t.ops (.fetch k) = none := by
  constructor
  · intro q id
    refine Classical.byContradiction fun hn => ?_
    rcases op_moves hn with ⟨op, x, h1, h2⟩ | hm
    · exact h _ _ _ (Step.execData s (.guest q id) x) rfl rfl ⟨op, h1, h2⟩
    · exact h _ _ _ (Step.baseDone s q id true hm) rfl rfl trivial
  · intro k
    refine Classical.byContradiction fun hn => ?_
    rcases op_moves hn with ⟨op, x, h1, h2⟩ | hm
    · exact h _ _ _ (Step.execData s (.fetch k) x) rfl rfl ⟨op, h1, h2⟩
    · exact h _ _ _ (Step.targetDone s k true true hm) rfl rfl trivial

theorem Resting.m {s : Sys D} (h : Resting c s) (k : Nat) : s.m.ops k = none := by
  refine Classical.byContradiction fun hn => ?_
  rcases op_moves hn with ⟨op, x, h1, h2⟩ | hm
  · exact h _ _ _ (Step.execMeta s k x) rfl rfl ⟨op, h1, h2⟩
  · exact h _ _ _ (Step.metaDone s k true true hm) rfl rfl trivial

theorem Resting.drained {s : Sys D} (h : Resting c s) (hr : Ready c s) : Drained c s := by
  obtain ⟨⟨⟨hdrs, mv, hb, hm⟩, hf⟩, -⟩ := hr.sound
  have hupd : ∀ k, s.fl.updates k = none := by
    intro k
    cases hu : s.fl.updates k with
    | none => rfl
    | some u =>
      exfalso
      have := (hm.upd k u hu).stage
      unfold StageOk at this
      split at this
      · obtain ⟨_, _, h1, _⟩ := this; rw [h.m k] at h1; simp at h1
      · obtain ⟨_, h1, _⟩ := this; rw [h.m k] at h1; simp at h1
  have hfq : s.fl.queue = [] := by
    cases hqq : s.fl.queue with
    | nil => rfl
    | cons p q =>
      exfalso
      obtain ⟨k, mask⟩ := p
      have hfree : s.fl.free ≠ 0 := by
        have := hr.fl
        unfold FlInv at this
        have e : cnt c.n (fun k => isWriting (s.fl.updates k)) = 0 := by
          simp only [hupd, isWriting_none]
          unfold cnt
          simp
        have : s.fl.free = maxChanges := by omega
        rw [this]; decide
      have hbz : s.fl.busy (stripeIdToSector k) = false := by
        cases hb : s.fl.busy (stripeIdToSector k) with
        | false => rfl
        | true =>
          obtain ⟨j, u, h1, -⟩ := hr.live.busy _ hb
          rw [hupd j] at h1; simp at h1
      have : ∃ s', startMeta s true = some s' := by
        unfold startMeta
        rw [hqq]
        simp only [hfree, hbz, if_false, Bool.false_eq_true, if_true]
        split
        · exact ⟨_, rfl⟩
        · exact ⟨_, rfl⟩
      obtain ⟨s', hs'⟩ := this
      exact h _ _ _ (Step.startMeta s true s' hs') rfl rfl trivial
  have hfin : s.fe.finished = [] := by
    cases hq : s.fe.finished with
    | nil => rfl
    | cons p rest => exact absurd trivial (h _ _ _ (Step.takeFinished s p.1 p.2 rest hq) rfl rfl)
  have hms : s.msgs = [] := by
    cases hq : s.msgs with
    | nil => rfl
    | cons p rest =>
      cases p with
      | fetch k => exact absurd trivial (h _ _ _ (Step.receiveFetch s k rest hq) rfl rfl)
      | setWritten k => exact absurd trivial (h _ _ _ (Step.receiveWritten s k rest hq) rfl rfl)
  have hsrc : ∀ k, s.fe.srcIn k = false := by
    intro k
    cases hk : s.fe.srcIn k with
    | false => rfl
    | true =>
      exfalso
      obtain ⟨-, hal, -, -, -⟩ := (hf.ok k).src hk
      cases ha : s.fe.alloc k with
      | none => exact hal ha
      | some b =>
        have : ∃ r, sourceDone c s k true true (s.fe.bufs b) = some r := by
          unfold sourceDone
          simp only [hk, ha, if_true]
          exact ⟨_, rfl⟩
        obtain ⟨⟨s', l⟩, hr'⟩ := this
        exact h _ _ _ (Step.sourceDone s k true true (s.fe.bufs b) s' l hr') rfl rfl trivial
  have hkd : ∀ k, s.t.kinds (.fetch k) = none := fun k => kinds_none.mpr (h.t.2 k)
  have hnst : ∀ k, s.fe.states k ≠ some .fetching ∧ s.fe.states k ≠ some .flushing := by
    intro k
    have hok := hf.ok k
    unfold StripeOk StripeOkC at hok
    rw [hkd k, hsrc k] at hok
    constructor <;> intro e <;> rw [e] at hok <;> simp at hok
  have hal : ∀ k, s.fe.alloc k = none := by
    intro k
    cases ha : s.fe.alloc k with
    | none => rfl
    | some b =>
      have := (hr.pool.busy k).mp (by show s.fe.alloc k ≠ none; rw [ha]; simp)
      rcases this with h1 | h1
      · exact absurd h1 (hnst k).1
      · exact absurd h1 (hnst k).2
  have hqe : s.fe.queue = [] := by
    cases hqq : s.fe.queue with
    | nil => rfl
    | cons k q =>
      exfalso
      have hfree : s.fe.free ≠ [] := by
        rcases hr.pool.cover 0 (by decide) with h1 | ⟨k, h1⟩
        · exact fun e => by have e' : s.core.free = [] := e; rw [e'] at h1; simp at h1
        · have e' : s.core.alloc k = none := hal k
          rw [e'] at h1; simp at h1
      cases hff : s.fe.free with
      | nil => exact hfree hff
      | cons b free =>
        have : ∃ r, startFetch c s true = some r := by
          unfold startFetch
          simp only [hqq, hff]
          split <;> exact ⟨_, rfl⟩
        obtain ⟨⟨s', l⟩, hr'⟩ := this
        exact h _ _ _ (Step.startFetch s true s' l hr') rfl rfl trivial
  refine ⟨hms, hfq, hfin, hupd, fun k => ?_⟩
  have hok := hf.ok k
  unfold StripeOk StripeOkC at hok
  cases hs : s.fe.states k with
  | none => exact Or.inl rfl
  | some st =>
    cases st with
    | fetched => exact Or.inr rfl
    | queued => rw [hs, hqe] at hok; simp at hok
    | fetching => exact absurd hs (hnst k).1
    | flushing => exact absurd hs (hnst k).2

/-- A backend at rest holds no request. -/
theorem Resting.free {s : Sys D} (h : Resting c s) (hr : Ready c s) (q id : Nat) : s.idFree q id := by
  have hd := h.drained hr
  refine ⟨h.t.1 q id, ?_, fun r hrq => ?_, fun p hp => ?_⟩
  · cases hi : (s.ch q).img id with
    | none => rfl
    | some p => exact absurd trivial (h _ _ _ (Step.imageDone s q id true p.1 p.2 hi) rfl rfl)
  · exfalso
    cases hq : (s.ch q).queue with
    | nil => rw [hq] at hrq; simp at hrq
    | cons r0 rest =>
      obtain ⟨hf, hw⟩ := hd.ready hr (q := q) (r := r0) (by rw [hq]; simp)
      have hnp := fetchStatus_ready hf
      have : ∃ r, processQueue c s q true = some r := by
        unfold processQueue
        rw [hq]
        simp only
        cases hst : fetchStatus s.sh (stripes c r0) with
        | pending => exact absurd hst hnp
        | failed => exact ⟨_, rfl⟩
        | complete =>
          have hgo : (c.track && r0.out.isSome && !(stripes c r0).all s.sh.ws) = false := by
            cases ht : c.track with
            | false => rfl
            | true =>
              cases ho : r0.out.isSome with
              | false => rfl
              | true =>
                have := hw ht ho
                have e : (stripes c r0).all s.sh.ws = true := List.all_eq_true.mpr this
                rw [e]; rfl
          simp only [hgo, if_true]
          exact ⟨_, rfl⟩
      obtain ⟨⟨s', l⟩, hr'⟩ := this
      exact h _ _ _ (Step.processQueue s q true s' l hr') rfl rfl trivial
  · exfalso
    cases hq : (s.ch q).finished with
    | nil => rw [hq] at hp; simp at hp
    | cons p rest => exact h _ _ _ (Step.reportFinished s q p.1 p.2 rest hq) rfl rfl trivial

end Verif.Lazy
