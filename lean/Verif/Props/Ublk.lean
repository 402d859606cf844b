import Verif.Model.Ublk
import Verif.Proof.Vhost

/-! # C41: ublk requests are completed once, with the right result -/

set_option maxRecDepth 8000

namespace Verif.Ublk
open Verif Verif.Metadata Verif.Disk Verif.Vhost

/-- The result a successful request must have: bytes transferred; a flush has none; an operation that is not read, write
or flush, or one larger than the device's limit, cannot succeed. -/
def rightResult (maxIo : Nat) (rq : Rq) (n : Nat) : Prop :=
  match rq.op with
  | .read | .write => n = rq.cnt * 512 ∧ n ≤ maxIo
  | .flush => n = 0
  | .unsupported => False

/-- The request sent to the channel is the kernel's. -/
def Match (rq : Rq) : DevReq → Prop
  | .read off cnt => rq.op = .read ∧ rq.off = off ∧ rq.cnt = cnt
  | .write off cnt _ => rq.op = .write ∧ rq.off = off ∧ rq.cnt = cnt
  | .flush => rq.op = .flush

/-- The operation the kernel asks for by the low byte of `op_flags`: UBLK_IO_OP_READ = 0, UBLK_IO_OP_WRITE = 1,
UBLK_IO_OP_FLUSH = 2, no other is supported. -/
def Asked (flags : Nat) (op : Op) : Prop :=
  (op = .read ↔ flags % 256 = 0) ∧ (op = .write ↔ flags % 256 = 1) ∧ (op = .flush ↔ flags % 256 = 2)

theorem asked_ofRaw (flags : Nat) : Asked flags (Op.ofRaw flags) := by
  unfold Asked Op.ofRaw
  generalize flags % 256 = x
  simp only
  split
  · simp; omega
  split
  · simp; omega
  split
  · simp; omega
  · simp; omega

/-- The kernel's side of a trace: which request each tag waits for. It is `Waits es w` only if every request came on a free
tag, every request sent to the channel is one a tag waits for, and every completion was for a tag that was waiting and had an error or the right result. -/
inductive Waits (maxIo : Nat) : List UEv → (Nat → Option Rq) → Prop where
  | nil : Waits maxIo [] fun _ => none
  | arrive {es : List UEv} {w : Nat → Option Rq} (flags : Nat) (rq : Rq) : Waits maxIo es w → w rq.tag = none →
      Asked flags rq.op → Waits maxIo (es ++ [.arrive flags rq]) (upd w rq.tag (some rq))
  | dev {es : List UEv} {w : Nat → Option Rq} (id : Nat) (q : DevReq) (rq : Rq) : Waits maxIo es w → w id = some rq →
      Match rq q → Waits maxIo (es ++ [.dev id q]) w
  | complete {es : List UEv} {w : Nat → Option Rq} (tag : Nat) (res : Option Nat) (buf : Bytes) (rq : Rq) : Waits maxIo es w →
      w tag = some rq → (∀ n, res = some n → rightResult maxIo rq n) →
      Waits maxIo (es ++ [.complete tag res buf]) (upd w tag none)

/-- What holds after every run without failed submissions. -/
structure Inv (maxIo : Nat) (u : Ub) (es : List UEv) : Prop where
  waits : Waits maxIo es u.out
  outP : ∀ rq ∈ u.pending, u.out rq.tag = some rq
  outI : ∀ id rq, u.inflight id = some rq → u.out id = some rq ∧ rq.tag = id
  outC : ∀ tag rq, u.out tag = some rq → rq ∈ u.pending ∨ u.inflight tag = some rq
  disj : ∀ rq ∈ u.pending, u.inflight rq.tag = none
  nodup : (u.pending.map Rq.tag).Nodup
  size : ∀ tag rq, u.out tag = some rq → rq.bytes = rq.cnt * 512 ∧ rq.bytes ≤ maxIo ∧ rq.tag = tag
  chan1 : ∀ id q, (id, q) ∈ u.chan → ∃ rq, u.inflight id = some rq ∧ Match rq q
  chan2 : ∀ id rq, u.inflight id = some rq → ∃ q, (id, q) ∈ u.chan
  chanN : (u.chan.map Prod.fst).Nodup
  back : ∀ id, (u.back id).length = maxIo
  bufs : ∀ id, (u.bufs id).length = maxIo
  quiet : u.looping = false → u.chan = []

theorem inv_init (maxIo : Nat) : Inv maxIo (Ub.init maxIo) [] := by
  refine ⟨.nil, ?_, ?_, ?_, ?_, ?_, ?_, ?_, ?_, ?_, ?_, ?_, ?_⟩ <;> simp [Ub.init]

theorem nodup_mid {a : Nat} {l r : List Nat} (h : (l ++ a :: r).Nodup) : a ∉ l ++ r ∧ (l ++ r).Nodup := by
  obtain ⟨h1, h2, h3⟩ := List.nodup_append.mp h
  obtain ⟨h4, h5⟩ := List.nodup_cons.mp h2
  refine ⟨?_, List.nodup_append.mpr ⟨h1, h5, fun x hx y hy => h3 x hx y (List.mem_cons_of_mem _ hy)⟩⟩
  intro ha
  rcases List.mem_append.mp ha with ha | ha
  · exact h3 a ha a (List.mem_cons_self ..) rfl
  · exact h4 ha

theorem take_splice (buf d : Bytes) (h : d.length ≤ buf.length) : (splice buf 0 d).take d.length = d := by
  simp [splice]

theorem splice_len0 (buf d : Bytes) (h : d.length ≤ buf.length) : (splice buf 0 d).length = buf.length :=
  splice_length buf d 0 (by omega)

theorem devReq_match {u : Ub} {rq : Rq} {q : DevReq} (h : devReq u rq = some q) : Match rq q := by
  unfold devReq at h
  split at h
  · cases h
  · cases hop : rq.op <;> rw [hop] at h <;> simp only [Option.some.injEq, reduceCtorEq] at h <;> subst h
    · exact ⟨hop, rfl, rfl⟩
    · exact ⟨hop, rfl, rfl⟩
    · exact hop

theorem inv_step {maxIo depth : Nat} {u u' : Ub} {es es' : List UEv} (hv : Inv maxIo u es) (h : Step maxIo depth false u es' u') :
    Inv maxIo u' (es ++ es') := by
  cases h with
  | arrive flags off cnt tag last data hl ho ht hd =>
    have hnp : ∀ rq ∈ u.pending, rq.tag ≠ tag := by
      intro rq hr e
      have := hv.outP rq hr
      rw [e, ho] at this; cases this
    have hni : u.inflight tag = none := by
      cases hi : u.inflight tag with
      | none => rfl
      | some rq => have := (hv.outI tag rq hi).1; rw [ho] at this; cases this
    have hbufs : ∀ id, (upd u.bufs tag data id).length = maxIo := by
      intro id
      by_cases e : id = tag
      · rw [e, upd_same]; exact hd
      · rw [upd_ne _ _ e]; exact hv.bufs id
    have hw := Waits.arrive (maxIo := maxIo) flags ⟨Op.ofRaw flags, off, cnt, tag, cnt * 512⟩ hv.waits ho (asked_ofRaw flags)
    unfold handle
    by_cases hbig : cnt * 512 > maxIo
    · simp only [if_pos hbig, finish]
      have hout : upd (upd u.out tag (some ⟨Op.ofRaw flags, off, cnt, tag, cnt * 512⟩)) tag none = u.out := by
        funext j
        by_cases e : j = tag
        · rw [e, upd_same, ho]
        · rw [upd_ne _ _ e, upd_ne _ _ e]
      have hw2 := Waits.complete (maxIo := maxIo) tag none (upd u.bufs tag data tag) ⟨Op.ofRaw flags, off, cnt, tag, cnt * 512⟩ hw
        (upd_same _ _ _) (fun n h => by cases h)
      simp only [List.append_assoc] at hw2
      refine ⟨hw2, ?_, ?_, ?_, hv.disj, hv.nodup, ?_, hv.chan1, hv.chan2, hv.chanN, hv.back, hbufs, hv.quiet⟩
      · simp only [hout]; exact hv.outP
      · simp only [hout]; exact hv.outI
      · simp only [hout]; exact hv.outC
      · simp only [hout]; exact hv.size
    · simp only [if_neg hbig]
      refine ⟨hw, ?_, ?_, ?_, ?_, ?_, ?_, hv.chan1, hv.chan2, hv.chanN, hv.back, hbufs, fun _ => hv.quiet hl⟩
      · intro rq hr
        rcases List.mem_append.mp hr with hr | hr
        · simp only; rw [upd_ne _ _ (hnp rq hr)]; exact hv.outP rq hr
        · rw [List.mem_singleton] at hr; subst hr; exact upd_same _ _ _
      · intro id rq hi
        have hne : id ≠ tag := by rintro rfl; simp only at hi; rw [hni] at hi; cases hi
        simp only; rw [upd_ne _ _ hne]; exact hv.outI id rq hi
      · intro t rq h
        simp only at h
        by_cases e : t = tag
        · rw [e, upd_same] at h
          obtain rfl := Option.some.inj h
          exact Or.inl (List.mem_append_right _ (List.mem_singleton.mpr rfl))
        · rw [upd_ne _ _ e] at h
          rcases hv.outC t rq h with h | h
          · exact Or.inl (List.mem_append_left _ h)
          · exact Or.inr h
      · intro rq hr
        rcases List.mem_append.mp hr with hr | hr
        · exact hv.disj rq hr
        · rw [List.mem_singleton] at hr; subst hr; exact hni
      · simp only [List.map_append, List.map_cons, List.map_nil]
        rw [List.nodup_append]
        refine ⟨hv.nodup, List.nodup_cons.mpr ⟨List.not_mem_nil, List.nodup_nil⟩, ?_⟩
        rintro a ha b hb rfl
        rw [List.mem_singleton] at hb
        obtain ⟨rq, hr, rfl⟩ := List.mem_map.mp ha
        exact hnp rq hr hb
      · intro t rq h
        simp only at h
        by_cases e : t = tag
        · rw [e, upd_same] at h
          obtain rfl := Option.some.inj h
          exact ⟨rfl, Nat.le_of_not_lt hbig, e.symm⟩
        · rw [upd_ne _ _ e] at h; exact hv.size t rq h
  | enqueue rq rest hl hp =>
    have hmem : rq ∈ u.pending := by rw [hp]; exact List.mem_cons_self ..
    have hout := hv.outP rq hmem
    have hni := hv.disj rq hmem
    have hnd := hv.nodup
    rw [hp, List.map_cons, List.nodup_cons] at hnd
    have hrest : ∀ r ∈ rest, r ∈ u.pending ∧ r.tag ≠ rq.tag := by
      intro r hr
      refine ⟨by rw [hp]; exact List.mem_cons_of_mem _ hr, fun e => hnd.1 (List.mem_map.mpr ⟨r, hr, e⟩)⟩
    unfold enqueue
    cases hq : devReq { u with pending := rest } rq with
    | none =>
      simp only [finish]
      refine ⟨.complete _ _ _ rq hv.waits hout (fun n h => by cases h), ?_, ?_, ?_, ?_, hnd.2, ?_, hv.chan1, hv.chan2, hv.chanN, hv.back, hv.bufs,
        fun h => by rw [hl] at h; cases h⟩
      · intro r hr; simp only; rw [upd_ne _ _ (hrest r hr).2]; exact hv.outP r (hrest r hr).1
      · intro id r hi
        have hne : id ≠ rq.tag := by rintro rfl; simp only at hi; rw [hni] at hi; cases hi
        simp only; rw [upd_ne _ _ hne]; exact hv.outI id r hi
      · intro t r h
        simp only at h
        by_cases e : t = rq.tag
        · rw [e, upd_same] at h; cases h
        · rw [upd_ne _ _ e] at h
          rcases hv.outC t r h with h' | h'
          · rw [hp] at h'
            rcases List.mem_cons.mp h' with rfl | h'
            · exact absurd (hv.size t r h).2.2.symm e
            · exact Or.inl h'
          · exact Or.inr h'
      · intro r hr; exact hv.disj r (hrest r hr).1
      · intro t r h
        simp only at h
        by_cases e : t = rq.tag
        · rw [e, upd_same] at h; cases h
        · rw [upd_ne _ _ e] at h; exact hv.size t r h
    | some q =>
      simp only
      have hnc : ∀ q', (rq.tag, q') ∉ u.chan := by
        intro q' hm
        obtain ⟨r, hr, _⟩ := hv.chan1 _ _ hm
        rw [hni] at hr; cases hr
      have hblen : rq.bytes ≤ maxIo := (hv.size _ _ hout).2.1
      refine ⟨.dev _ _ rq hv.waits (hv.outP rq (by rw [hp]; exact List.mem_cons_self ..)) (devReq_match hq), ?_, ?_, ?_, ?_, hnd.2, hv.size, ?_, ?_, ?_, ?_, hv.bufs, fun h => by rw [hl] at h; cases h⟩
      · intro r hr; exact hv.outP r (hrest r hr).1
      · intro id r hi
        simp only at hi
        by_cases e : id = rq.tag
        · rw [e, upd_same] at hi
          obtain rfl := Option.some.inj hi
          rw [e]; exact ⟨hout, rfl⟩
        · rw [upd_ne _ _ e] at hi; exact hv.outI id r hi
      · intro t r h
        simp only
        rcases hv.outC t r h with h' | h'
        · rw [hp] at h'
          rcases List.mem_cons.mp h' with rfl | h'
          · right
            rw [← (hv.size t r h).2.2, upd_same]
          · exact Or.inl h'
        · right
          have hne : t ≠ rq.tag := by rintro rfl; rw [hni] at h'; cases h'
          rw [upd_ne _ _ hne]; exact h'
      · intro r hr
        simp only; rw [upd_ne _ _ (hrest r hr).2]; exact hv.disj r (hrest r hr).1
      · intro id q' hm
        simp only at hm ⊢
        rcases List.mem_append.mp hm with hm | hm
        · have hne : id ≠ rq.tag := by rintro rfl; exact hnc q' hm
          rw [upd_ne _ _ hne]; exact hv.chan1 id q' hm
        · simp only [List.mem_singleton, Prod.mk.injEq] at hm
          obtain ⟨rfl, rfl⟩ := hm
          exact ⟨rq, upd_same _ _ _, devReq_match hq⟩
      · intro id r hi
        simp only at hi ⊢
        by_cases e : id = rq.tag
        · exact ⟨q, List.mem_append_right _ (by rw [e]; exact List.mem_singleton.mpr rfl)⟩
        · rw [upd_ne _ _ e] at hi
          obtain ⟨q', hq'⟩ := hv.chan2 id r hi
          exact ⟨q', List.mem_append_left _ hq'⟩
      · simp only [List.map_append, List.map_cons, List.map_nil]
        rw [List.nodup_append]
        refine ⟨hv.chanN, List.nodup_cons.mpr ⟨List.not_mem_nil, List.nodup_nil⟩, ?_⟩
        rintro a ha b hb rfl
        rw [List.mem_singleton] at hb
        obtain ⟨⟨i, q'⟩, hm, rfl⟩ := List.mem_map.mp ha
        simp only at hb; subst hb
        exact hnc q' hm
      · intro id
        simp only
        split
        · by_cases e : id = rq.tag
          · rw [e, upd_same, splice_len0, hv.back]
            rw [hv.back, List.length_take, hv.bufs]; omega
          · rw [upd_ne _ _ e]; exact hv.back id
        · exact hv.back id
  | submit hl hp =>
    rw [List.append_nil]
    exact ⟨hv.waits, hv.outP, hv.outI, hv.outC, hv.disj, hv.nodup, hv.size, hv.chan1, hv.chan2, hv.chanN, hv.back, hv.bufs, hv.quiet⟩
  | submitFail hf => cases hf
  | report pre post id q data success hl hp hq hc hf =>
    have hmem : (id, q) ∈ u.chan := by rw [hc]; simp
    obtain ⟨rq, hi, hm⟩ := hv.chan1 id q hmem
    obtain ⟨ho, htag⟩ := hv.outI id rq hi
    obtain ⟨hs1, hs2, _⟩ := hv.size id rq ho
    have hnd := hv.chanN
    rw [hc, List.map_append, List.map_cons] at hnd
    have hnot : id ∉ (pre ++ post).map Prod.fst := by
      rw [List.map_append]
      exact (nodup_mid hnd).1
    have hnd2 : ((pre ++ post).map Prod.fst).Nodup := by
      rw [List.map_append]
      exact (nodup_mid hnd).2
    have hsub : ∀ x, x ∈ pre ++ post → x ∈ u.chan := by
      intro x hx
      rw [hc]
      rcases List.mem_append.mp hx with h | h
      · exact List.mem_append_left _ h
      · exact List.mem_append_right _ (List.mem_cons_of_mem _ h)
    have hdl : data.length ≤ maxIo := by
      cases q with
      | read off cnt =>
        simp only [DevReq.filled] at hf
        rw [hf, ← hm.2.2, ← hs1]; exact hs2
      | write => simp only [DevReq.filled] at hf; rw [hf]; simp
      | flush => simp only [DevReq.filled] at hf; rw [hf]; simp
    have hback : ∀ j, (upd u.back id (data ++ (u.back id).drop data.length) j).length = maxIo := by
      intro j
      by_cases e : j = id
      · rw [e, upd_same, List.length_append, List.length_drop, hv.back]; omega
      · rw [upd_ne _ _ e]; exact hv.back j
    have main : ∀ (b : Nat → Bytes) (res : Option Nat), (∀ j, (b j).length = maxIo) →
        (∀ n, res = some n → rightResult maxIo rq n) →
        Inv maxIo { u with chan := pre ++ post, back := upd u.back id (data ++ (u.back id).drop data.length), bufs := b,
                           inflight := upd u.inflight id none, out := upd u.out id none } (es ++ [.complete id res (b id)]) := by
      intro b res hb hres
      refine ⟨.complete _ _ _ rq hv.waits ho hres, ?_, ?_, ?_, ?_, hv.nodup, ?_, ?_, ?_, hnd2, hback, hb, fun h => by rw [hl] at h; cases h⟩
      · intro r hr; simp only [hp] at hr; cases hr
      · intro j r hj
        simp only at hj ⊢
        by_cases e : j = id
        · rw [e, upd_same] at hj; cases hj
        · rw [upd_ne _ _ e] at hj ⊢; exact hv.outI j r hj
      · intro t r h
        simp only at h ⊢
        by_cases e : t = id
        · rw [e, upd_same] at h; cases h
        · rw [upd_ne _ _ e] at h ⊢; exact hv.outC t r h
      · intro r hr; simp only [hp] at hr; cases hr
      · intro t r h
        simp only at h
        by_cases e : t = id
        · rw [e, upd_same] at h; cases h
        · rw [upd_ne _ _ e] at h; exact hv.size t r h
      · intro j q' hj
        simp only at hj ⊢
        have hne : j ≠ id := by rintro rfl; exact hnot (List.mem_map.mpr ⟨(j, q'), hj, rfl⟩)
        rw [upd_ne _ _ hne]; exact hv.chan1 j q' (hsub _ hj)
      · intro j r hj
        simp only at hj ⊢
        by_cases e : j = id
        · rw [e, upd_same] at hj; cases hj
        · rw [upd_ne _ _ e] at hj
          obtain ⟨q', hq'⟩ := hv.chan2 j r hj
          rw [hc] at hq'
          refine ⟨q', ?_⟩
          rcases List.mem_append.mp hq' with h | h
          · exact List.mem_append_left _ h
          · rcases List.mem_cons.mp h with h | h
            · cases h; exact absurd rfl e
            · exact List.mem_append_right _ h
    unfold report
    simp only [hi, completeRequest]
    cases success with
    | false =>
      simp only [Bool.not_false, if_true, finish]
      exact main u.bufs none hv.bufs (fun n h => by cases h)
    | true =>
      simp only [Bool.not_true, Bool.false_eq_true, if_false]
      cases hop : rq.op with
      | read =>
        simp only [finish]
        refine main _ _ ?_ ?_
        · intro j
          by_cases e : j = rq.tag
          · rw [e, upd_same, splice_len0, hv.bufs]
            rw [hv.bufs, List.length_take, hback]; omega
          · rw [upd_ne _ _ e]; exact hv.bufs j
        · intro n h; obtain rfl := Option.some.inj h
          simp only [rightResult, hop]; exact ⟨hs1, hs2⟩
      | write =>
        simp only [finish]
        refine main _ _ hv.bufs ?_
        intro n h; obtain rfl := Option.some.inj h
        simp only [rightResult, hop]; exact ⟨hs1, hs2⟩
      | flush =>
        simp only [finish]
        refine main _ _ hv.bufs ?_
        intro n h; obtain rfl := Option.some.inj h
        simp only [rightResult, hop]
      | unsupported =>
        simp only [finish]
        exact main _ _ hv.bufs (fun n h => by cases h)
  | exit hl hp hq hc =>
    rw [List.append_nil]
    exact ⟨hv.waits, hv.outP, hv.outI, hv.outC, hv.disj, hv.nodup, hv.size, hv.chan1, hv.chan2, hv.chanN, hv.back, hv.bufs, fun _ => hc⟩

variable {maxIo depth : Nat} {es : List UEv} {u : Ub}

theorem run_inv (h : Run maxIo depth false es u) : Inv maxIo u es := by
  induction h with
  | nil => exact inv_init maxIo
  | snoc _ hs ih => exact inv_step ih hs

/-- C41, when `submit` never fails: in every run, each completion is for a tag the kernel is waiting for, is the only one
for that request, and has an error or the right result (an oversized request or unknown operation always gets an
error). Missing: runs in which `submit` fails (`C41_submit_failure_completes_wrong_request`). -/
theorem C41_exactly_once_partial (h : Run maxIo depth false es u) : ∃ w, Waits maxIo es w := ⟨_, (run_inv h).waits⟩

/-- C41, none forgotten, when `submit` never fails: once nothing is pending and the handler is outside its loop, the kernel
waits for nothing. Missing: a handler outside its loop with requests pending (`C41_oversized_last_stalls_batch`). -/
theorem C41_all_completed_partial (h : Run maxIo depth false es u) (hl : u.looping = false) (hp : u.pending = []) :
    ∃ w, Waits maxIo es w ∧ ∀ tag, w tag = none := by
  have hI := run_inv h
  refine ⟨_, hI.waits, fun tag => ?_⟩
  cases ho : u.out tag with
  | none => rfl
  | some rq =>
    rcases hI.outC tag rq ho with h | h
    · rw [hp] at h; cases h
    · obtain ⟨q, hq⟩ := hI.chan2 tag rq h
      rw [hI.quiet hl] at hq; cases hq

/-- `Waits` determines who waits. -/
theorem waits_unique {w w' : Nat → Option Rq} (h : Waits maxIo es w) (h' : Waits maxIo es w') : w = w' := by
  induction h generalizing w' with
  | nil => generalize he : ([] : List UEv) = e at h'; cases h' <;> simp_all
  | arrive fl rq h1 h2 h3 ih =>
    generalize he : _ ++ [_] = e at h'
    cases h' with
    | nil => simp at he
    | arrive fl' rq' a b => obtain ⟨rfl, h⟩ := List.append_inj' he rfl; cases h; rw [ih a]
    | dev id q rq' a => obtain ⟨rfl, h⟩ := List.append_inj' he rfl; cases h
    | complete t r b rq' a => obtain ⟨rfl, h⟩ := List.append_inj' he rfl; cases h
  | dev id q rq h1 h2 h3 ih =>
    generalize he : _ ++ [_] = e at h'
    cases h' with
    | nil => simp at he
    | arrive fl' rq' a b => obtain ⟨rfl, h⟩ := List.append_inj' he rfl; cases h
    | dev id q rq' a => obtain ⟨rfl, h⟩ := List.append_inj' he rfl; cases h; exact ih a
    | complete t r b rq' a => obtain ⟨rfl, h⟩ := List.append_inj' he rfl; cases h
  | complete tag res buf rq h1 h2 h3 ih =>
    generalize he : _ ++ [_] = e at h'
    cases h' with
    | nil => simp at he
    | arrive fl' rq' a b => obtain ⟨rfl, h⟩ := List.append_inj' he rfl; cases h
    | dev id q rq' a => obtain ⟨rfl, h⟩ := List.append_inj' he rfl; cases h
    | complete t r b rq' a => obtain ⟨rfl, h⟩ := List.append_inj' he rfl; cases h; rw [ih a]

/-- C41, reads: when the channel has delivered `data` for the read in flight on a tag, the tag is completed with the byte
count, the buffer given back begins with exactly these bytes, and the rest of it is untouched. -/
theorem C41_read_data (h : Run maxIo depth false es u) {id : Nat} {pre post : List (Nat × DevReq)} {off cnt : Nat} {data : Bytes}
    (hc : u.chan = pre ++ (id, .read off cnt) :: post) (hd : data.length = cnt * 512) :
    (report { u with chan := pre ++ post, back := upd u.back id (data ++ (u.back id).drop data.length) } id true).2
      = [.complete id (some (cnt * 512)) (data ++ (u.bufs id).drop (cnt * 512))] := by
  have hI := run_inv h
  obtain ⟨rq, hi, hm1, hm2, hm3⟩ := hI.chan1 id _ (show (id, DevReq.read off cnt) ∈ u.chan by rw [hc]; simp)
  obtain ⟨ho, htag⟩ := hI.outI id rq hi
  obtain ⟨hs1, hs2, _⟩ := hI.size id rq ho
  unfold report
  simp only [hi, completeRequest, Bool.not_true, Bool.false_eq_true, if_false, hm1, finish]
  rw [htag, upd_same, upd_same, hs1, hm3]
  rw [List.take_append_of_le_length (by omega), List.take_of_length_le (by omega)]
  simp [splice, hd]

/-- C41, writes: what is sent to the channel for a write is the beginning of the tag's buffer, as many bytes as the
kernel asked to write, to the sector it asked for. -/
theorem C41_write_data (h : Run maxIo depth false es u) {rq : Rq} {rest : List Rq} (hp : u.pending = rq :: rest)
    (hop : rq.op = .write) :
    (enqueue { u with pending := rest } rq).2 = [.dev rq.tag (.write rq.off rq.cnt ((u.bufs rq.tag).take (rq.cnt * 512)))] := by
  have hI := run_inv h
  have ho := hI.outP rq (by rw [hp]; exact List.mem_cons_self ..)
  obtain ⟨hs1, hs2, _⟩ := hI.size _ rq ho
  unfold enqueue devReq
  simp only
  rw [if_neg (by rw [hI.back, hI.bufs]; omega)]
  simp only [hop, hs1]

/-- C41: a request larger than the device's limit is refused at once. -/
theorem C41_oversized_refused (u : Ub) (flags off cnt tag : Nat) (last : Bool) (data : Bytes) (h : cnt * 512 > maxIo) :
    (handle maxIo u flags off cnt tag last data).2 = [.arrive flags ⟨Op.ofRaw flags, off, cnt, tag, cnt * 512⟩, .complete tag none data] := by
  simp [handle, h, finish]

/-! ## Examples and counterexamples -/

/-- A read on tag 3, delivered: the hypotheses above are met. -/
theorem demo_ublk : ∃ (es : List UEv) (u : Ub), Run 1024 8 false es u ∧ u.looping = false ∧ u.pending = [] ∧
    ∃ buf, UEv.complete 3 (some 512) buf ∈ es ∧ buf = List.replicate 512 9 ++ zeros 512 := by
  have r1 : Run 1024 8 false _ _ := .snoc .nil (.arrive _ 0 7 1 3 true (zeros 1024) rfl rfl (by decide) (by simp))
  have r2 : Run 1024 8 false _ _ := .snoc r1 (.enqueue _ ⟨.read, 7, 1, 3, 512⟩ [] rfl rfl)
  have r3 : Run 1024 8 false _ _ := .snoc r2 (.submit _ rfl rfl)
  have hd : (List.replicate 512 (9 : UInt8)).length = 1 * 512 := by simp
  have hq : devReq { (handle 1024 (Ub.init 1024) 0 7 1 3 true (zeros 1024)).1 with pending := [] } ⟨.read, 7, 1, 3, 512⟩
      = some (.read 7 1) := by simp [devReq, handle, Ub.init]
  have hc := C41_read_data (id := 3) (pre := []) (post := []) (off := 7) (cnt := 1) r3 (by
    simp only [enqueue, hq]; rfl) hd
  have r4 : Run 1024 8 false _ _ := .snoc r3 (.report _ [] [] 3 (.read 7 1) _ true rfl rfl rfl (by
    simp only [enqueue, hq]; rfl) hd)
  rw [hc] at r4
  refine ⟨_, _, .snoc r4 (.exit _ ?_ ?_ ?_ ?_), ?_, ?_, _, ?_, rfl⟩
  · rfl
  · rfl
  · rfl
  · rfl
  · rfl
  · rfl
  · refine List.mem_append_left _ (List.mem_append_right _ (List.mem_singleton.mpr (congrArg (UEv.complete 3 (some 512)) ?_)))
    show _ = _ ++ (zeros 1024).drop (1 * 512)
    simp [zeros]

/-- C41 is false when `submit` fails: every request in flight is completed with an error, but the channel still has it. If
the kernel reuses the tag, the old request's report completes the new one: here the kernel asked for sector 100 on tag 0
and is given, as a success, the data read from sector 7. -/
theorem C41_submit_failure_completes_wrong_request : ∃ (es : List UEv) (u : Ub), Run 1024 8 true es u ∧
    u.out 0 = some ⟨.read, 100, 1, 0, 512⟩ ∧ u.looping = true ∧ u.pending = [] ∧ u.queued = false ∧
    u.chan = [] ++ (0, .read 7 1) :: [(0, .read 100 1)] ∧
    ∀ data : Bytes, data.length = 1 * 512 →
      (report { u with chan := [] ++ [(0, .read 100 1)], back := upd u.back 0 (data ++ (u.back 0).drop data.length) } 0 true).2
        = [.complete 0 (some 512) (data ++ zeros 512)] := by
  have hq : ∀ (u : Ub) (off : Nat), (u.back 0).length = 1024 → (u.bufs 0).length = 1024 →
      devReq u ⟨.read, off, 1, 0, 512⟩ = some (.read off 1) := by
    intro u off h1 h2; simp [devReq, h1, h2]
  let u1 := (handle 1024 (Ub.init 1024) 0 7 1 0 true (zeros 1024)).1
  have r1 : Run 1024 8 true _ u1 := .snoc .nil (.arrive _ 0 7 1 0 true (zeros 1024) rfl rfl (by decide) (by simp))
  have r2 : Run 1024 8 true _ _ := .snoc r1 (.enqueue _ ⟨.read, 7, 1, 0, 512⟩ [] rfl rfl)
  have e2 : enqueue { u1 with pending := [] } ⟨.read, 7, 1, 0, 512⟩ =
      ({ u1 with pending := [], chan := [(0, .read 7 1)], inflight := upd u1.inflight 0 (some ⟨.read, 7, 1, 0, 512⟩), queued := true }, [.dev 0 (.read 7 1)]) := by
    unfold enqueue
    rw [hq _ _ (zeros_length _) (zeros_length _)]
    rfl
  rw [e2] at r2
  have r3 : Run 1024 8 true _ _ := .snoc r2 (.submitFail _ rfl rfl rfl rfl)
  let u3 := { u1 with pending := [], chan := [(0, DevReq.read 7 1)], inflight := fun _ => none, queued := false, looping := false, out := fun _ => none }
  have e3 : failAll { u1 with pending := [], chan := [(0, .read 7 1)], inflight := upd u1.inflight 0 (some ⟨.read, 7, 1, 0, 512⟩), queued := false, looping := false }
      (List.range 8) = (u3, [.complete 0 none (zeros 1024)]) := by
    have hu : upd (upd u1.inflight 0 (some (⟨.read, 7, 1, 0, 512⟩ : Rq))) 0 none = fun _ => none := by
      funext j; by_cases h : j = 0
      · rw [h, upd_same]
      · rw [upd_ne _ _ h, upd_ne _ _ h]; rfl
    have ho : upd u1.out 0 none = fun _ => none := by
      funext j; by_cases h : j = 0
      · rw [h, upd_same]
      · rw [upd_ne _ _ h]
        show upd (fun _ => none) 0 _ j = none
        rw [upd_ne _ _ h]
    show failAll _ (0 :: [1, 2, 3, 4, 5, 6, 7]) = _
    simp only [failAll, upd_same, finish, hu]
    rw [ho]
    rfl
  simp only [e3] at r3
  let u4 := (handle 1024 u3 0 100 1 0 true (zeros 1024)).1
  have r4 : Run 1024 8 true _ u4 := .snoc r3 (.arrive _ 0 100 1 0 true (zeros 1024) rfl rfl (by decide) (by simp))
  have r5 : Run 1024 8 true _ _ := .snoc r4 (.enqueue _ ⟨.read, 100, 1, 0, 512⟩ [] rfl rfl)
  have e5 : enqueue { u4 with pending := [] } ⟨.read, 100, 1, 0, 512⟩ =
      ({ u4 with pending := [], chan := [(0, .read 7 1), (0, .read 100 1)], inflight := upd u4.inflight 0 (some ⟨.read, 100, 1, 0, 512⟩), queued := true }, [.dev 0 (.read 100 1)]) := by
    unfold enqueue
    rw [hq _ _ (zeros_length _) (zeros_length _)]
    rfl
  rw [e5] at r5
  have r6 : Run 1024 8 true _ _ := .snoc r5 (.submit _ rfl rfl)
  refine ⟨_, _, r6, rfl, rfl, rfl, rfl, rfl, ?_⟩
  intro data hd
  simp only [report, upd_same, completeRequest, Bool.not_true, Bool.false_eq_true, if_false, finish]
  rw [List.take_append_of_le_length (by omega), List.take_of_length_le (by omega)]
  have : u4.bufs 0 = zeros 1024 := rfl
  simp [splice, hd, this, zeros]

/-- C41 is false of a batch whose last request is oversized: the handler returns without processing the requests before
it. They stay pending, and nothing but a further request of the kernel makes the handler go on. -/
theorem C41_oversized_last_stalls_batch : ∃ (es : List UEv) (u : Ub), Run 1024 8 false es u ∧
    u.out 0 = some ⟨.read, 7, 1, 0, 512⟩ ∧ u.looping = false ∧
    ∀ es' u', Step 1024 8 true u es' u' → ∃ flags rq, UEv.arrive flags rq ∈ es' := by
  have r1 : Run 1024 8 false _ _ := .snoc .nil (.arrive _ 0 7 1 0 false (zeros 1024) rfl rfl (by decide) (by simp))
  have r2 : Run 1024 8 false _ _ := .snoc r1 (.arrive _ 0 0 100 1 true (zeros 1024) rfl rfl (by decide) (by simp))
  refine ⟨_, _, r2, rfl, rfl, ?_⟩
  intro es' u' h
  generalize hu : (handle 1024 (handle 1024 (Ub.init 1024) 0 7 1 0 false (zeros 1024)).1 0 0 100 1 true (zeros 1024)).1 = u at h
  have hl : u.looping = false := by rw [← hu]; rfl
  cases h with
  | arrive flags off cnt tag last data _ _ _ _ =>
    unfold handle
    simp only
    split <;> exact ⟨_, _, List.mem_cons_self ..⟩
  | enqueue rq rest h => rw [hl] at h; cases h
  | submit h => rw [hl] at h; cases h
  | submitFail _ h => rw [hl] at h; cases h
  | report pre post id q data success h => rw [hl] at h; cases h
  | exit h => rw [hl] at h; cases h

end Verif.Ublk
