import Verif.Proof.ArchiveRead
import Verif.Props.Archive

/-! # C28, C29: reading and exporting archives -/

set_option maxRecDepth 8000

namespace Verif.Archive
open Verif Verif.Crypt Verif.Disk

variable {P : Prims} {src : Src} {store : Name → Option Bytes} {b0 : Nat → Bytes}

/-! ## C28 -/

/-- **C28** Each request is answered at most once, with the stripe it was made for; once the source is idle every request
has been answered exactly once. Requests are numbered in the order they were made. -/
theorem C28_exactly_once {out : List (Nat × Bool × Nat)} {s : Rd} (h : RRun P src store { bufs := b0 } out s) :
    (out.map (·.2.2)).Nodup ∧ (∀ x ∈ out, x.2.2 < s.nreq ∧ s.req x.2.2 = x.1) ∧
    (s.busy = false → (out.map (·.2.2)).Perm (List.range s.nreq)) := by
  have hi := (rrun_inv h).led
  have hn := hi.ledger.nodup_iff.2 List.nodup_range
  refine ⟨(List.nodup_append.1 hn).1, fun x hx => ⟨?_, hi.ids x (List.mem_append_left _ hx)⟩, fun hb => ?_⟩
  · exact List.mem_range.1 (hi.ledger.mem_iff.1 (List.mem_append_left _ (List.mem_map_of_mem hx)))
  · simp only [Rd.busy, Bool.or_eq_false_iff, Bool.not_eq_false', List.isEmpty_iff] at hb
    have := hi.ledger
    simpa [Rd.waiting, hb.1, hb.2] using this

/-- **C28** A request still to be answered is known to be: the source reports busy, and whenever the store has answered
all it was asked, one poll delivers everything. -/
theorem C28_drains {out : List (Nat × Bool × Nat)} {s : Rd} (h : RRun P src store { bufs := b0 } out s)
    {cs : List (Name × Option Bytes)} (ha : Answers store s.gets cs []) :
    (s.poll P src cs []).2.busy = false ∧
      ((out ++ (s.poll P src cs []).1).map (·.2.2)).Perm (List.range s.nreq) := by
  obtain ⟨hp, hf, hn, -⟩ := poll_inv (rrun_inv h) ha
  have hr : RRun P src store { bufs := b0 } _ _ := .poll h cs [] ha
  have hb : (s.poll P src cs []).2.busy = false := by
    have hg := hp.gets
    have h0 : (s.poll P src cs []).2.gets = [] := by
      have h0 : Led P src store b0 out [] [] { s with gets := [] } := by
        have := (rrun_inv h).led
        exact ⟨this.names, this.key, this.wait, this.extra, this.ledger, this.ids, this.len, this.good⟩
      exact (completes_led cs h0 ha.2).2.2.1
    rw [h0] at hg
    have hpe : (s.poll P src cs []).2.pending = [] := by simpa using hg.symm.eq_nil
    simp [Rd.busy, hf, hpe]
  exact ⟨hb, hn ▸ (C28_exactly_once hr).2.2 hb⟩

/-- **C28** A request answered with success has in its buffer what the archive holds for the stripe. -/
theorem C28_contents {out : List (Nat × Bool × Nat)} {s : Rd} (h : RRun P src store { bufs := b0 } out s) {id r : Nat}
    (hx : (id, true, r) ∈ out) : readStripe P src store id (b0 r).length = .ok (s.bufs r) :=
  (rrun_inv h).led.good _ (List.mem_append_left _ hx) rfl

/-- A history in which the store answers every read with the object's contents. -/
inductive ServedRun (P : Prims) (src : Src) (store : Name → Option Bytes) (s0 : Rd) : List (Nat × Bool × Nat) → Rd → Prop where
  | nil : ServedRun P src store s0 [] s0
  | request {out s} (h : ServedRun P src store s0 out s) (id : Nat) : ServedRun P src store s0 out (s.request src id)
  | poll {out s} (h : ServedRun P src store s0 out s) (cs : List (Name × Option Bytes)) (rest : List Name)
      (ha : Answers store s.gets cs rest) (hs : ∀ c ∈ cs, c.2 ≠ none) :
      ServedRun P src store s0 (out ++ (s.poll P src cs rest).1) (s.poll P src cs rest).2

theorem ServedRun.run {s0 : Rd} {out : List (Nat × Bool × Nat)} {s : Rd} (h : ServedRun P src store s0 out s) : RRun P src store s0 out s := by
  induction h with
  | nil => exact .nil
  | request _ id ih => exact .request ih id
  | poll _ cs rest ha _ ih => exact .poll ih cs rest ha

/-- Failures reported so far are of stripes that cannot be read. -/
def Rd.Blame (P : Prims) (src : Src) (store : Name → Option Bytes) (b0 : Nat → Bytes) (s : Rd) : Prop :=
  ∀ x ∈ s.finished, x.2.1 = false → ∃ e, readStripe P src store x.1 (b0 x.2.2).length = .error e

theorem finishAll_blame {out : List (Nat × Bool × Nat)} {xs : List (Nat × Nat)} {sha data : Bytes} {s : Rd}
    (h : Led P src store b0 out xs sha s) (hd : store (objectKey sha) = some data) (hb : s.Blame P src store b0) :
    (xs.foldl (Rd.finishOne P src data sha) s).Blame P src store b0 := by
  induction xs generalizing s with
  | nil => exact hb
  | cons x xs ih =>
    refine ih (finishOne_led h hd) ?_
    obtain ⟨_, e2⟩ := h.extra x (.head _)
    unfold Rd.finishOne
    split
    · rename_i er he
      intro y hy hf
      simp only [List.mem_append, List.mem_singleton] at hy
      rcases hy with hy | rfl
      · exact hb y hy hf
      · simp only [readStripe, e2, hd]
        rw [← h.len]; exact ⟨er, he⟩
    · intro y hy hf
      simp only [List.mem_append, List.mem_singleton] at hy
      rcases hy with hy | rfl
      · exact hb y hy hf
      · cases hf

theorem complete_blame {out : List (Nat × Bool × Nat)} {sha : Bytes} {s : Rd} (h : Led P src store b0 out [] sha s)
    (c : Name × Option Bytes) (hc : ∀ d, c.2 = some d → store c.1 = some d) (hs : c.2 ≠ none) (hb : s.Blame P src store b0) :
    (Rd.complete P src s c).Blame P src store b0 := by
  unfold Rd.complete
  cases hf : s.pending.find? (·.name == c.1) with
  | none => exact hb
  | some p =>
    obtain ⟨hperm, hp, hm⟩ := perm_of_find h.names hf
    simp only
    have hsub : ∀ q, q ∈ s.pending.filter (·.name != c.1) → q ∈ s.pending := fun q hq => (List.mem_filter.1 hq).1
    have hl : Led P src store b0 out p.stripes p.sha { s with pending := s.pending.filter (·.name != c.1) } := by
      refine ⟨(List.filter_sublist.map _).nodup h.names, fun q hq => h.key q (hsub q hq), fun q hq => h.wait q (hsub q hq),
        h.wait p hm, ?_, h.ids, h.len, h.good⟩
      refine List.Perm.trans ?_ h.ledger
      refine List.Perm.append_left _ (List.Perm.append_left _ ?_)
      simp only [List.map_nil, List.nil_append]
      rw [← List.map_append]
      refine List.Perm.map _ ?_
      exact ((List.Perm.flatMap_right (·.stripes) hperm).symm)
    split
    · rename_i data hd
      have hs := hc data hd
      rw [← hp, h.key p hm] at hs
      exact finishAll_blame hl hs hb
    · exact absurd (by assumption) hs

theorem completes_blame {out : List (Nat × Bool × Nat)} {sha : Bytes} (cs : List (Name × Option Bytes)) {s : Rd}
    (h : Led P src store b0 out [] sha s) (hc : ∀ n d, (n, some d) ∈ cs → store n = some d) (hs : ∀ c ∈ cs, c.2 ≠ none)
    (hb : s.Blame P src store b0) : (cs.foldl (Rd.complete P src) s).Blame P src store b0 := by
  induction cs generalizing s with
  | nil => exact hb
  | cons c cs ih =>
    have hc' : ∀ d, c.2 = some d → store c.1 = some d := fun d hd => hc c.1 d (by rw [← hd]; exact .head _)
    exact ih (complete_led h c hc').1 (fun n d hm => hc n d (.tail _ hm)) (fun c' hm => hs c' (.tail _ hm))
      (complete_blame h c hc' (hs c (.head _)) hb)

/-- **C28** A request fails only if it has to: with a store that answers every read, a stripe the archive can be read for is delivered. -/
theorem C28_served {out : List (Nat × Bool × Nat)} {s : Rd} (h : ServedRun P src store { bufs := b0 } out s) {id r : Nat} {ok : Bool}
    (hx : (id, ok, r) ∈ out) {b : Bytes} (hr : readStripe P src store id (b0 r).length = .ok b) : ok = true ∧ s.bufs r = b := by
  have key : s.Blame P src store b0 ∧ ∀ x ∈ out, x.2.1 = false → ∃ e, readStripe P src store x.1 (b0 x.2.2).length = .error e := by
    clear hx hr
    induction h with
    | nil => exact ⟨fun x hx => (by cases hx), fun x hx => (by cases hx)⟩
    | @request out s h id ih =>
      refine ⟨?_, ih.2⟩
      have hfill : ∀ b : Nat → Bytes, ∀ s' : Rd, s'.finished = s.finished ++ [(id, true, s.nreq)] → s'.Blame P src store b0 := by
        intro b s' he x hx hf
        rw [he] at hx
        simp only [List.mem_append, List.mem_singleton] at hx
        rcases hx with hx | rfl
        · exact ih.1 x hx hf
        · cases hf
      unfold Rd.request
      simp only
      cases ht : tableOf src.table id with
      | none => exact hfill b0 _ rfl
      | some v =>
        cases v with
        | zero => exact hfill b0 _ rfl
        | obj sha =>
          simp only [Rd.startFetch]
          split
          · exact ih.1
          · exact ih.1
    | @poll out s h cs rest ha hs ih =>
      have hl := (rrun_inv h.run).led
      have h0 : Led P src store b0 out [] [] { s with gets := rest } := ⟨hl.names, hl.key, hl.wait, hl.extra, hl.ledger, hl.ids, hl.len, hl.good⟩
      have hb := completes_blame cs h0 ha.2 hs ih.1
      refine ⟨fun x hx => (by cases hx), fun x hx hf => ?_⟩
      rcases List.mem_append.mp hx with hx | hx
      · exact ih.2 x hx hf
      · exact hb x hx hf
  cases ok with
  | true =>
    refine ⟨rfl, ?_⟩
    have := C28_contents h.run hx
    rw [hr] at this
    exact (Except.ok.inj this).symm
  | false =>
    obtain ⟨e, he⟩ := key.2 _ hx rfl
    rw [hr] at he; cases he

/-! ## C29 -/

theorem tableOf_bound {l : List (Nat × Spec)} {id : Nat} (h : (tableOf l id).isSome) : ∃ kv ∈ l, kv.1 = id := by
  have : ∀ (l : List (Nat × Spec)) (m : Nat → Option Spec),
      (l.foldl (fun m kv => upd m kv.1 (some kv.2)) m id).isSome → (m id).isSome ∨ ∃ kv ∈ l, kv.1 = id := by
    intro l
    induction l with
    | nil => intro m h; exact .inl h
    | cons kv l ih =>
      intro m h
      rcases ih _ h with h | ⟨kv', h1, h2⟩
      · by_cases he : id = kv.1
        · exact .inr ⟨kv, .head _, he.symm⟩
        · simp only [upd_ne _ _ he] at h; exact .inl h
      · exact .inr ⟨kv', .tail _ h1, h2⟩
  simpa using this l _ h

theorem foldl_max_le (l : List Nat) (a : Nat) : a ≤ l.foldl max a ∧ ∀ x ∈ l, x ≤ l.foldl max a := by
  induction l generalizing a with
  | nil => simp
  | cons y l ih =>
    obtain ⟨h1, h2⟩ := ih (max a y)
    refine ⟨Nat.le_trans (Nat.le_max_left ..) h1, ?_⟩
    intro x hx
    rcases List.mem_cons.1 hx with rfl | hx
    · exact Nat.le_trans (Nat.le_max_right ..) h1
    · exact h2 x hx

/-- Every stripe of the archive is inside the exported file. -/
theorem stripes_cover {id : Nat} (h : src.hasStripe id = true) : id < src.stripes := by
  obtain ⟨kv, h1, rfl⟩ := tableOf_bound h
  exact (foldl_max_le (src.table.map fun kv => kv.1 + 1) 0).2 _ (List.mem_map_of_mem (f := fun kv : Nat × Spec => kv.1 + 1) h1)

theorem pair_of_find {l : List (Nat × Nat)} {x : Nat × Nat} (hn : (l.map (·.1)).Nodup) (hm : x ∈ l) :
    l.find? (·.1 == x.1) = some x ∧ l.Perm (x :: l.filter (·.1 != x.1)) := by
  induction l with
  | nil => simp at hm
  | cons q l ih =>
    simp only [List.map_cons, List.nodup_cons] at hn
    rcases List.mem_cons.1 hm with rfl | hm
    · have : l.filter (·.1 != x.1) = l := by
        rw [List.filter_eq_self]
        intro q hq
        simp only [bne_iff_ne, ne_eq]
        intro e
        exact hn.1 (by rw [← e]; exact List.mem_map_of_mem hq)
      simp [this]
    · have hq : q.1 ≠ x.1 := by
        intro e
        exact hn.1 (by rw [e]; exact List.mem_map_of_mem hm)
      rw [List.filter_cons_of_pos (by simpa using hq), List.find?_cons_of_neg (by simpa using hq)]
      exact ⟨(ih hn.2 hm).1, ((ih hn.2 hm).2.cons q).trans (.swap _ _ _)⟩

/-- The export while running: `L` are completions still to be handled. -/
structure EInv (P : Prims) (src : Src) (store : Name → Option Bytes) (L : List (Nat × Bool × Nat)) (e : Ex) : Prop where
  rd : ∃ out, RInv P src store (fun _ => zeros (src.ssc * 512)) out e.rd ∧ ∀ x ∈ L, x ∈ out
  owed : e.inflight.Perm (L.map (fun x => (x.1, x.2.2)) ++ (e.rd.finished.map (fun x => (x.1, x.2.2)) ++ e.rd.waiting))
  ids : (e.inflight.map (·.1)).Nodup ∧ ∀ x ∈ e.inflight, x.1 < e.next
  count : e.written + e.inflight.length = e.next ∧ e.next ≤ src.stripes
  file : e.file.length = src.stripes * (src.ssc * 512)
  ready : ∀ i, i < e.next → i ∉ e.inflight.map (·.1) →
    readStripe P src store i (src.ssc * 512) = .ok (slice e.file (i * (src.ssc * 512)) (src.ssc * 512))
  blank : ∀ i, e.next ≤ i → i < src.stripes →
    slice e.file (i * (src.ssc * 512)) (src.ssc * 512) = zeros (src.ssc * 512)

theorem fits {i n S : Nat} (h : i < n) : i * S + S ≤ n * S := by
  have := Nat.mul_le_mul_right S (Nat.succ_le_of_lt h)
  rwa [Nat.succ_mul] at this

theorem apart {i j S : Nat} (h : i ≠ j) : i * S + S ≤ j * S ∨ j * S + S ≤ i * S := by
  rcases Nat.lt_or_ge i j with h' | h'
  · exact .inl (fits h')
  · exact .inr (fits (by omega))

theorem one_inv {L : List (Nat × Bool × Nat)} {c : Nat × Bool × Nat} {e : Ex} (h : EInv P src store (c :: L) e) (hr : e.phase = .running) :
    (Ex.one (src.ssc * 512) e c).phase = .failed ∨
      (EInv P src store L (Ex.one (src.ssc * 512) e c) ∧ (Ex.one (src.ssc * 512) e c).phase = .running) := by
  unfold Ex.one
  rw [if_neg (by simp [hr])]
  split
  · exact .inl rfl
  · rename_i hok
    obtain ⟨out, hrd, hL⟩ := h.rd
    have hmem : (c.1, c.2.2) ∈ e.inflight := h.owed.mem_iff.2 (by simp)
    obtain ⟨hf, hp⟩ := pair_of_find h.ids.1 hmem
    rw [hf]
    right
    have hc := hL c (.head _)
    have hlen : (e.rd.bufs c.2.2).length = src.ssc * 512 := by rw [hrd.led.len]; simp
    have hgood := hrd.led.good c (List.mem_append_left _ hc) (by simpa using hok)
    rw [zeros_length] at hgood
    have hlt := h.ids.2 _ hmem
    have hfit : c.1 * (src.ssc * 512) + (e.rd.bufs c.2.2).length ≤ e.file.length := by
      rw [hlen, h.file]; exact fits (Nat.lt_of_lt_of_le hlt h.count.2)
    have hlen2 := hp.length_eq
    simp only [List.length_cons] at hlen2
    refine ⟨⟨⟨out, hrd, fun x hx => hL x (.tail _ hx)⟩, ?_, ⟨?_, ?_⟩, ⟨?_, h.count.2⟩, ?_, ?_, ?_⟩, hr⟩
    · exact ((hp.symm.trans h.owed)).cons_inv
    · exact (List.filter_sublist.map _).nodup h.ids.1
    · intro x hx; exact h.ids.2 x (List.mem_filter.1 hx).1
    · have := h.count.1; simp only; omega
    · simp only; rw [splice_length _ _ _ hfit]; exact h.file
    · intro i hi hni
      simp only at hi hni ⊢
      by_cases he : i = c.1
      · subst he
        rw [splice_slice_same _ _ _ _ hlen (by rw [hlen] at hfit; exact hfit)]
        exact hgood
      · rw [slice_splice_disjoint _ _ _ _ _ hfit (by rw [hlen]; exact apart he)]
        refine h.ready i hi fun hm => hni ?_
        simp only [List.mem_map] at hm ⊢
        obtain ⟨x, hx, rfl⟩ := hm
        exact ⟨x, List.mem_filter.2 ⟨hx, by simpa using he⟩, rfl⟩
    · intro i hi hi2
      simp only at hi ⊢
      rw [slice_splice_disjoint _ _ _ _ _ hfit (by rw [hlen]; exact apart (by omega))]
      exact h.blank i hi hi2

theorem one_failed {S : Nat} {c : Nat × Bool × Nat} {e : Ex} (h : e.phase = .failed) : Ex.one S e c = e := by
  unfold Ex.one; rw [if_pos (by simp [h])]

theorem ones_failed {S : Nat} (L : List (Nat × Bool × Nat)) {e : Ex} (h : e.phase = .failed) : L.foldl (Ex.one S) e = e := by
  induction L with
  | nil => rfl
  | cons c L ih => rw [List.foldl_cons, one_failed h]; exact ih

theorem ones_inv (L : List (Nat × Bool × Nat)) {e : Ex} (h : EInv P src store L e) (hr : e.phase = .running) :
    (L.foldl (Ex.one (src.ssc * 512)) e).phase = .failed ∨
      (EInv P src store [] (L.foldl (Ex.one (src.ssc * 512)) e) ∧ (L.foldl (Ex.one (src.ssc * 512)) e).phase = .running) := by
  induction L generalizing e with
  | nil => exact .inr ⟨h, hr⟩
  | cons c L ih =>
    rcases one_inv h hr with hf | ⟨h1, h2⟩
    · left; rw [List.foldl_cons, ones_failed L hf]; exact hf
    · exact ih h1 h2

theorem slice_zeros (n a k : Nat) (h : a + k ≤ n) : slice (zeros n) a k = zeros k := by
  simp only [slice, zeros, List.drop_replicate, List.take_replicate]
  congr 1; omega

theorem erun_inv {e : Ex} (h : ERun P src store e) :
    e.phase = .failed ∨ EInv P src store [] e ∧ (e.phase = .done → src.stripes ≤ e.written) := by
  induction h with
  | init =>
    right
    refine ⟨⟨⟨[], ⟨led_init _, by simp [Ex.init]⟩, by simp⟩, by simp [Ex.init, Rd.waiting], by simp [Ex.init],
      by simp [Ex.init], by simp [Ex.init], by simp [Ex.init], ?_⟩, by simp [Ex.init]⟩
    intro i _ hi
    exact slice_zeros _ _ _ (fits hi)
  | @step e e' _ hs ih =>
    cases hs with
    | submit hr hl hn =>
      rcases ih with ih | ⟨ih, -⟩
      · rw [hr] at ih; simp at ih
      · right
        unfold Ex.submit
        split
        · rename_i hno
          refine ⟨⟨ih.rd, ih.owed, ⟨ih.ids.1, fun x hx => Nat.lt_succ_of_lt (ih.ids.2 x hx)⟩, ⟨?_, hn⟩, ih.file, ?_, ?_⟩, by simp [hr]⟩
          · have := ih.count.1; simp only; omega
          · intro i hi hni
            simp only at hi hni ⊢
            by_cases he : i = e.next
            · subst he
              rw [ih.blank _ (Nat.le_refl _) hn]
              simp only [Src.hasStripe, Option.isSome_eq_false_iff, Option.isNone_iff_eq_none] at hno
              simp only [readStripe, hno]
            · exact ih.ready i (by omega) hni
          · intro i hi hi2; exact ih.blank i (by simp only at hi; omega) hi2
        · rename_i hyes
          obtain ⟨out, hrd, -⟩ := ih.rd
          obtain ⟨h1, h2, h3⟩ := request_inv hrd e.next
          refine ⟨⟨⟨out, h1, by simp⟩, ?_, ⟨?_, ?_⟩, ⟨?_, hn⟩, ih.file, ?_, ?_⟩, by simp [hr]⟩
          · have ho := ih.owed
            simp only [List.map_nil, List.nil_append] at ho ⊢
            refine (ho.append_right _).trans ?_
            unfold Rd.request
            simp only
            split
            · simp only [Rd.waiting, List.map_append, List.map_cons, List.map_nil, List.append_assoc]
              exact List.Perm.append_left _ List.perm_append_comm
            · rename_i sha ht
              simp only [Rd.startFetch]
              split
              · rename_i hany
                simp only [Rd.waiting, List.append_assoc]
                refine List.Perm.append_left _ ?_
                exact (addTo_perm hrd.led.names (by simpa using hany)).symm
              · simp only [Rd.waiting, List.append_assoc, List.flatMap_append, List.flatMap_cons, List.flatMap_nil, List.append_nil]
                exact List.Perm.refl _
            · simp only [Rd.waiting, List.map_append, List.map_cons, List.map_nil, List.append_assoc]
              exact List.Perm.append_left _ List.perm_append_comm
          · simp only [List.map_append, List.map_cons, List.map_nil]
            rw [List.nodup_append]
            refine ⟨ih.ids.1, by simp, ?_⟩
            intro a ha b hb he
            simp only [List.mem_map] at ha
            obtain ⟨x, hx, rfl⟩ := ha
            simp only [List.mem_singleton] at hb
            have := ih.ids.2 x hx
            omega
          · intro x hx
            simp only [List.mem_append, List.mem_singleton] at hx
            simp only
            rcases hx with hx | rfl
            · exact Nat.lt_succ_of_lt (ih.ids.2 x hx)
            · exact Nat.lt_succ_self _
          · have := ih.count.1
            simp only [List.length_append, List.length_cons, List.length_nil]; omega
          · intro i hi hni
            simp only [List.map_append, List.map_cons, List.map_nil, List.mem_append, List.mem_singleton, not_or] at hi hni
            exact ih.ready i (by omega) hni.1
          · intro i hi hi2; exact ih.blank i (by simp only at hi; omega) hi2
    | poll hr cs rest ha =>
      rcases ih with ih | ⟨ih, -⟩
      · rw [hr] at ih; simp at ih
      · obtain ⟨out, hrd, -⟩ := ih.rd
        obtain ⟨h1, h2, h3, h4⟩ := poll_inv hrd ha
        have hE : EInv P src store (e.rd.poll P src cs rest).1 { e with rd := (e.rd.poll P src cs rest).2 } := by
          refine ⟨⟨_, h1, fun x hx => List.mem_append_right _ hx⟩, ?_, ih.ids, ih.count, ih.file, ih.ready, ih.blank⟩
          -- both sides list the requests not delivered before
          have p1 := hrd.led.ledger
          have p2 := h1.led.ledger
          rw [h3, h2] at p2
          simp only [List.map_append, List.map_nil, List.nil_append, List.append_assoc] at p1 p2
          have p3 := (List.perm_append_left_iff _).1 (p1.trans p2.symm)
          have p4 := p3.map fun r => (e.rd.req r, r)
          simp only [List.map_append, List.map_map] at p4
          have q1 : e.rd.finished.map (fun x => (x.1, x.2.2)) = e.rd.finished.map ((fun r => (e.rd.req r, r)) ∘ fun x => x.2.2) :=
            List.map_congr_left fun x hx => by simp [hrd.led.ids x (List.mem_append_right _ hx)]
          have q2 : ∀ s : Rd, (∀ p ∈ s.pending, ∀ x ∈ p.stripes, s.req x.2 = x.1 ∧ tableOf src.table x.1 = some (.obj p.sha)) →
              s.waiting = s.waiting.map ((fun r => (s.req r, r)) ∘ fun x => x.2) := by
            intro s hs
            have : s.waiting.map ((fun r => (s.req r, r)) ∘ fun x => x.2) = s.waiting.map fun x => x := by
              refine List.map_congr_left fun x hx => ?_
              obtain ⟨p, hp, hx⟩ := List.mem_flatMap.1 hx
              simp [(hs p hp x hx).1]
            rw [this, List.map_id']
          have q3 : (e.rd.poll P src cs rest).1.map (fun x => (x.1, x.2.2)) =
              (e.rd.poll P src cs rest).1.map ((fun r => (e.rd.req r, r)) ∘ fun x => x.2.2) :=
            List.map_congr_left fun x hx => by
              have := h1.led.ids x (List.mem_append_left _ (List.mem_append_right _ hx))
              rw [h4] at this
              simp [this]
          have q4 := q2 _ h1.led.wait
          rw [h4] at q4
          rw [← q1, ← q3, ← q2 _ hrd.led.wait, ← q4] at p4
          have ho := ih.owed
          simp only [List.map_nil, List.nil_append] at ho
          simp only [h2, List.map_nil, List.nil_append]
          exact ho.trans p4
        rcases ones_inv _ hE hr with hf | ⟨g1, g2⟩
        · exact .inl hf
        · exact .inr ⟨g1, by unfold Ex.poll; rw [g2]; simp⟩
    | done hr hw =>
      rcases ih with ih | ⟨ih, -⟩
      · rw [hr] at ih; simp at ih
      · exact .inr ⟨⟨ih.rd, ih.owed, ih.ids, ih.count, ih.file, ih.ready, ih.blank⟩, fun _ => by simpa using hw⟩

/-- **C29** A finished export wrote a file of the archive's size in which every stripe holds what the archive holds for
it; every stripe recorded in the archive is inside the file. -/
theorem C29_export {e : Ex} (h : ERun P src store e) (hd : e.phase = .done) :
    e.file.length = src.stripes * (src.ssc * 512) ∧ (∀ i, src.hasStripe i = true → i < src.stripes) ∧
    ∀ i, i < src.stripes →
      readStripe P src store i (src.ssc * 512) = .ok (slice e.file (i * (src.ssc * 512)) (src.ssc * 512)) := by
  rcases erun_inv h with hf | ⟨hi, hw⟩
  · rw [hd] at hf; simp at hf
  · have hw := hw hd
    have hc := hi.count
    have h0 : e.inflight = [] := List.length_eq_zero_iff.1 (by omega)
    refine ⟨hi.file, fun i hi => stripes_cover hi, fun i hlt => hi.ready i (by omega) (by simp [h0])⟩

/-- **C29** At most sixteen stripes are being fetched. -/
theorem C29_sixteen {e : Ex} (h : ERun P src store e) : e.inflight.length ≤ 16 := by
  have hone : ∀ (L : List (Nat × Bool × Nat)) (e : Ex) (S : Nat), (L.foldl (Ex.one S) e).inflight.length ≤ e.inflight.length := by
    intro L
    induction L with
    | nil => intro e S; exact Nat.le_refl _
    | cons c L ih =>
      intro e S
      refine Nat.le_trans (ih _ S) ?_
      unfold Ex.one
      split
      · exact Nat.le_refl _
      · split
        · exact Nat.le_refl _
        · split
          · exact Nat.le_refl _
          · exact List.length_filter_le _ _
  induction h with
  | init => simp [Ex.init]
  | step _ hs ih =>
    cases hs with
    | submit hr hl hn =>
      unfold Ex.submit
      split
      · exact ih
      · simp only [List.length_append, List.length_cons, List.length_nil]
        simp only [maxFetches] at hl
        omega
    | poll hr cs rest ha => exact Nat.le_trans (hone _ _ _) ih
    | done hr hw => exact ih

/-- **C29** A stripe that fails makes the export fail, and a failed export stays failed. -/
theorem C29_failure {e : Ex} (hr : e.phase = .running) (cs : List (Name × Option Bytes)) (rest : List Name)
    (hx : ∃ x ∈ (e.rd.poll P src cs rest).1, x.2.1 = false) :
    (e.poll P src cs rest).phase = .failed ∧ ∀ e', ¬ EStep P src store (e.poll P src cs rest) e' := by
  have hfail : ∀ (L : List (Nat × Bool × Nat)) (e : Ex) (S : Nat), e.phase = .running → (∃ x ∈ L, x.2.1 = false) →
      (L.foldl (Ex.one S) e).phase = .failed := by
    intro L
    induction L with
    | nil => rintro e S _ ⟨x, hx, -⟩; simp at hx
    | cons c L ih =>
      rintro e S hr ⟨x, hx, hf⟩
      by_cases hc : c.2.1 = false
      · have : (Ex.one S e c).phase = .failed := by unfold Ex.one; rw [if_neg (by simp [hr]), if_pos hc]
        rw [List.foldl_cons, ones_failed L this]; exact this
      · rcases List.mem_cons.1 hx with rfl | hx
        · exact absurd hf hc
        · refine ih _ S ?_ ⟨x, hx, hf⟩
          unfold Ex.one
          rw [if_neg (by simp [hr]), if_neg hc]
          split <;> exact hr
  have h := hfail (e.rd.poll P src cs rest).1 { e with rd := (e.rd.poll P src cs rest).2 } (src.ssc * 512) hr hx
  refine ⟨h, fun e' hs => ?_⟩
  have h : (e.poll P src cs rest).phase = .failed := h
  cases hs with
  | submit h1 => rw [h] at h1; simp at h1
  | poll h1 => rw [h] at h1; simp at h1
  | done h1 => rw [h] at h1; simp at h1

/-- **C22 and C29 together**: archive a disk, open the archive, export it: the file holds, stripe by stripe, the data
fetched while archiving, and zeros for the stripes that were not archived. -/
theorem C29_archive_export {c : Cfg} {s : St} {st0 : Name → Option Bytes} {ls : List Lab} {e : Ex} (hc : c.Ok)
    (h : Run c (St.init c st0) ls s) (hd : s.phase = .done) (hl : (c.P.encMap (entries c.count s.hashes)).length < 2 ^ 64)
    (hn : NoCollision c s) (hs : openArchive c.P c.kek s.store = .ok src) (he : ERun c.P src s.store e) (hed : e.phase = .done) :
    e.file.length = src.stripes * (c.ssc * 512) ∧ ∀ i, i < src.stripes → i < c.count →
      (shouldArchive c i = .ok true ∧ ∃ buf, Lab.fetched i true buf ∈ ls ∧ slice e.file (i * (c.ssc * 512)) (c.ssc * 512) = buf) ∨
      (shouldArchive c i = .ok false ∧ slice e.file (i * (c.ssc * 512)) (c.ssc * 512) = zeros (c.ssc * 512)) := by
  obtain ⟨src', h1, h2, h3⟩ := C22_restore hc h hd hl hn
  rw [hs] at h1
  simp only [Except.ok.injEq] at h1
  subst h1
  obtain ⟨g1, -, g3⟩ := C29_export he hed
  rw [h2] at g1 g3
  refine ⟨g1, fun i hi hic => ?_⟩
  have g := g3 i hi
  rcases h3 i hic with ⟨a1, buf, a2, a3, a4⟩ | ⟨a1, a2, a3⟩
  · rw [a4 _ (Nat.le_refl _)] at g
    refine .inl ⟨a1, buf, a2, ?_⟩
    simpa [zeros] using g.symm
  · rw [a3] at g
    refine .inr ⟨a1, ?_⟩
    simpa using g.symm

/-! ## Concrete cases -/

/-- Two stripes sharing one object, and one of zeros. -/
noncomputable def demoSrc : Src := { keys := none, table := [(0, .obj (toyP.sha demoBuf)), (1, .obj (toyP.sha demoBuf)), (2, .zero)], ssc := 1, comp := .none }

noncomputable def demoStore : Name → Option Bytes := fun n => if n = objectKey (toyP.sha demoBuf) then some demoBuf else none

/-- C28: three requests, two for the same object; one read is started, one answer completes both. -/
example : ∃ out s, ServedRun toyP demoSrc demoStore { bufs := fun _ => zeros 512 } out s ∧
    (0, true, 0) ∈ out ∧ (1, true, 1) ∈ out ∧ (2, true, 2) ∈ out ∧ s.busy = false ∧ s.bufs 1 = demoBuf := by
  have t1 : tableOf demoSrc.table 0 = some (.obj (toyP.sha demoBuf)) := rfl
  have t2 : tableOf demoSrc.table 1 = some (.obj (toyP.sha demoBuf)) := rfl
  have t3 : tableOf demoSrc.table 2 = some .zero := rfl
  have ff : ∀ i, finishFetch toyP demoSrc i 512 demoBuf (toyP.sha demoBuf) = .ok demoBuf := by
    intro i
    simp [finishFetch, maybeDecrypt, demoSrc, decompress, demoBuf, zeros]
  have r0 : ServedRun toyP demoSrc demoStore { bufs := fun _ => zeros 512 } [] _ := .nil
  have r1 := r0.request 0
  simp only [Rd.request, t1, Rd.startFetch, List.any_nil, Bool.false_eq_true, if_false] at r1
  have r2 := r1.request 1
  simp only [Rd.request, t2, Rd.startFetch, List.nil_append, List.any_cons, List.any_nil, beq_self_eq_true, Bool.or_false, if_true] at r2
  have r3 := r2.request 2
  simp only [Rd.request, t3] at r3
  have r4 := r3.poll [(objectKey (toyP.sha demoBuf), some demoBuf)] [] ⟨by simp, by simp [demoStore]⟩ (by simp)
  refine ⟨_, _, r4, ?_⟩
  simp [Rd.poll, Rd.complete, Rd.finishOne, Rd.busy, upd, ff]

/-- C29: exporting the three stripes reaches `done`. -/
example : ∃ e, ERun toyP demoSrc demoStore e ∧ e.phase = .done ∧ slice e.file (1 * 512) 512 = demoBuf := by
  have t1 : tableOf demoSrc.table 0 = some (.obj (toyP.sha demoBuf)) := rfl
  have t2 : tableOf demoSrc.table 1 = some (.obj (toyP.sha demoBuf)) := rfl
  have t3 : tableOf demoSrc.table 2 = some .zero := rfl
  have hn : demoSrc.stripes = 3 := rfl
  have hS : demoSrc.ssc * 512 = 512 := rfl
  have ff : ∀ i, finishFetch toyP demoSrc i 512 demoBuf (toyP.sha demoBuf) = .ok demoBuf := by
    intro i
    simp [finishFetch, maybeDecrypt, demoSrc, decompress, demoBuf, zeros]
  have rs : readStripe toyP demoSrc demoStore 1 512 = .ok demoBuf := by
    simp only [readStripe, t2, demoStore, if_true, ff]
  have r0 : ERun toyP demoSrc demoStore (Ex.init demoSrc) := .init
  simp only [Ex.init, hn, hS] at r0
  have r1 := r0.step (.submit _ rfl (by simp [maxFetches]) (by simp [hn]))
  simp only [Ex.submit, Src.hasStripe, t1, Option.isSome_some, Bool.true_eq_false, if_false, Rd.request, Rd.startFetch, List.any_nil,
    Bool.false_eq_true, List.nil_append] at r1
  have r2 := r1.step (.submit _ rfl (by simp [maxFetches]) (by simp [hn]))
  simp only [Ex.submit, Src.hasStripe, Nat.zero_add, t2, Option.isSome_some, Bool.true_eq_false, if_false, Rd.request, Rd.startFetch, List.any_nil,
    Bool.false_eq_true, List.nil_append, List.any_cons, beq_self_eq_true, Bool.or_false, if_true, List.map_cons, List.map_nil] at r2
  have r3 := r2.step (.submit _ rfl (by simp [maxFetches]) (by simp [hn]))
  simp only [Ex.submit, Src.hasStripe, Nat.reduceAdd, t3, Option.isSome_some, Bool.true_eq_false, if_false, Rd.request] at r3
  have r4 := r3.step (.poll _ rfl [(objectKey (toyP.sha demoBuf), some demoBuf)] [] ⟨by simp, by simp [demoStore]⟩)
  simp [Ex.poll, Rd.poll, Rd.complete, Rd.finishOne, upd, ff, hS, Ex.one] at r4
  have r5 := r4.step (.done _ rfl (by simp [hn]))
  refine ⟨_, r5, rfl, ?_⟩
  have h := (C29_export r5 rfl).2.2 1 (by simp [hn])
  rw [hS, rs] at h
  simpa using h.symm

end Verif.Archive
