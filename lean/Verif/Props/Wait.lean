import Verif.Proof.Wait
import Verif.Props.Init

/-! # C78: waiting for one request at a time -/

namespace Verif.Wait
open Verif Verif.Disk
variable {D : Type}

/-- **C78** A completion is taken for an answer exactly if it is the first one that carries the id waited for. -/
theorem C78_scan (id : Nat) (cs : List (Nat × Bool)) (ok : Bool) :
    scan id cs = some ok ↔ ∃ a b, cs = a ++ (id, ok) :: b ∧ ∀ c ∈ a, c.1 ≠ id := by
  induction cs with
  | nil => simp [scan]
  | cons c cs ih =>
    obtain ⟨i, o⟩ := c
    by_cases h : i = id
    · subst h
      simp only [scan, ne_eq, not_true_eq_false, if_false, Option.some.injEq]
      constructor
      · rintro rfl; exact ⟨[], cs, rfl, by simp⟩
      · rintro ⟨a, b, e, ha⟩
        cases a with
        | nil => simp at e; exact e.1
        | cons x a =>
          simp only [List.cons_append, List.cons.injEq] at e
          exact absurd (by rw [← e.1]) (ha x (by simp))
    · simp only [scan, ne_eq, h, not_false_eq_true, if_true, ih]
      constructor
      · rintro ⟨a, b, rfl, ha⟩
        refine ⟨(i, o) :: a, b, rfl, ?_⟩
        intro c hc
        rcases List.mem_cons.mp hc with rfl | hc
        · exact h
        · exact ha c hc
      · rintro ⟨a, b, e, ha⟩
        cases a with
        | nil => simp at e; exact absurd e.1.1 h
        | cons x a =>
          simp only [List.cons_append, List.cons.injEq] at e
          exact ⟨a, b, e.2, fun c hc => ha c (by simp [hc])⟩

/-- **C78** A program that makes its requests one at a time, waits for each and stops at the first error, and that returns without an error,
has done what the requests do one after the other: every buffer holds what its own request reads, and every write is on the disk. This
holds however the device orders and splits the work, however its completions are spread over polls, and whatever the clock does. If the
last request is a flush, everything is also there after a power loss. -/
theorem C78_in_turn {d : Disk D} (h0 : ∀ o, d.ops o = none) {rs : List (Nat × Req D)} {s : St D} (h : Run (start d rs) s)
    (hf : s.cli.finished) :
    s.disk.vol = (inTurn d.vol (rs.map Prod.snd)).1 ∧ s.cli.got = (inTurn d.vol (rs.map Prod.snd)).2 ∧
    (∀ o, s.disk.ops o = none) ∧
    (∀ p i, rs = p ++ [(i, .flush)] → ∀ v, s.disk.survives v → v = s.disk.vol) ∧
    Disk.Run d (answered 0 (rs.map Prod.snd) s.cli.got) s.disk := by
  obtain ⟨f1, f2, f3⟩ := hf
  obtain ⟨pre, hg, h⟩ := Run.inv h0 h f3
  rcases h with ⟨_, e, hm, hn, hv, hp, hr⟩ | ⟨_, _, hw, _⟩
  · rw [f1, List.append_nil] at e
    subst e
    exact ⟨hv, hg, hn, fun p i e v hs => funext fun x => hp p i e x (v x) (hs x), hr⟩
  · rw [f2] at hw; cases hw

theorem take_inTurn (v : Nat → D) (a b : List (Req D)) : (inTurn v (a ++ b)).2.take (inTurn v a).2.length = (inTurn v a).2 := by
  rw [inTurn_append]; simp

/-- **C78** At every moment, also after an error, what the program has been handed is what its requests so far read, in this order. -/
theorem C78_so_far {d : Disk D} (h0 : ∀ o, d.ops o = none) {rs : List (Nat × Req D)} {s : St D} (h : Run (start d rs) s) :
    s.cli.got <+: (inTurn d.vol (rs.map Prod.snd)).2 := by
  have main : ∀ {s : St D}, Run (start d rs) s → s.cli.failed = false → s.cli.got <+: (inTurn d.vol (rs.map Prod.snd)).2 := by
    intro s h hf
    obtain ⟨pre, hg, h⟩ := Run.inv h0 h hf
    have : ∃ post, rs = pre ++ post := by
      rcases h with ⟨_, e, _⟩ | ⟨_, _, _, e, _⟩ <;> exact ⟨_, e⟩
    obtain ⟨post, rfl⟩ := this
    rw [hg, List.map_append, inTurn_append]
    exact List.prefix_append _ _
  generalize hs : start d rs = s0 at h
  induction h with
  | nil => subst hs; exact main (.nil _) rfl
  | @snoc s' s'' hr hstep ih =>
    by_cases hf : s''.cli.failed = false
    · exact main (hs ▸ hr.snoc hstep) hf
    · cases hstep with
      | submit h _ _ => exact absurd h hf
      | refused _ _ _ _ => exact ih
      | exec _ _ => exact ih
      | @poll cs d' h hw hp =>
        have : (settle d' cs s'.cli).got = s'.cli.got := by
          revert hf
          simp only [settle]
          split
          · intro; rfl
          · split
            · intro; rfl
            · intro; rfl
            · intro hf; exact absurd h hf
        rw [this]; exact ih
      | giveUp _ _ => exact ih

theorem run_trans {s s' s'' : St D} (h : Run s s') (h' : Run s' s'') : Run s s'' := by
  induction h' with
  | nil => exact h
  | snoc _ hs ih => exact ih.snoc hs

theorem run_silent {d d' : Disk D} {es : List (Ev D)} (h : Disk.Run d es d') (he : es = []) (c : Cli D) : Run ⟨d, c⟩ ⟨d', c⟩ := by
  induction h with
  | nil => exact .nil _
  | snoc _ hstep ih =>
    simp only [List.append_eq_nil_iff] at he
    have ih := ih he.1
    obtain ⟨_, he⟩ := he
    cases hstep with
    | exec o x => exact ih.snoc (.exec _ o x)
    | issue => cases he
    | respond => cases he
    | crash => cases he

/-- **C78** The requests can be carried out: from an idle disk some run returns without an error. -/
theorem C78_can_finish (d : Disk D) (h0 : ∀ o, d.ops o = none) (rs : List (Nat × Req D)) :
    ∃ s, Run (start d rs) s ∧ s.cli.finished := by
  have main : ∀ (rs' : List (Nat × Req D)) (s : St D), Run (start d rs) s → s.cli.todo = rs' → s.cli.waiting = none →
      s.cli.failed = false → ∃ s, Run (start d rs) s ∧ s.cli.finished := by
    intro rs'
    induction rs' with
    | nil => intro s h ht hw hf; exact ⟨s, h, ht, hw, hf⟩
    | cons q rs' ih =>
      obtain ⟨id, r⟩ := q
      intro s h ht hw hf
      have h1 := h.snoc (.submit hf hw ht)
      obtain ⟨pre, hg, hi⟩ := Run.inv h0 h1 hf
      rcases hi with ⟨hw', _⟩ | ⟨id', r', hw', e, hm, hid, hn, hfl, hr⟩
      · cases hw'
      · simp only at hm hid hn hfl hw'
        obtain ⟨op, hop⟩ := Option.ne_none_iff_exists'.mp (inFlight_some hfl)
        obtain ⟨d', op', g1, g2, g3, g4, _⟩ := Init.finish _ _ hop
        have h2 := run_trans h1 (run_silent g1 rfl _)
        have h3 := h2.snoc (.poll (cs := [⟨pre.length, true, d'.result (0, pre.length) true⟩]) (d' := Dev.complete d' (0, pre.length) true)
          hf (by simp) (.cons ⟨op', g3, fun _ => g4⟩ (.nil _)))
        refine ih _ h3 ?_ ?_ ?_ <;> simp [settle, scan, hid, hw', hf] <;> simp_all
  exact main rs _ (.nil _) rfl rfl rfl

/-! ## Callers -/

/-- **C78** `load_from_bdev` and the reader of legacy metadata see the whole device as it is. -/
theorem C78_load {d : Disk D} (h0 : ∀ o, d.ops o = none) {n : Nat} {s : St D} (h : Run (start d (loadReqs n)) s) (hf : s.cli.finished) :
    s.cli.got = [(List.range n).map fun i => some (d.vol i)] ∧ s.disk.vol = d.vol := by
  obtain ⟨h1, h2, _⟩ := C78_in_turn h0 h hf
  exact ⟨by simp [h2, loadReqs, inTurn, now], by simp [h1, loadReqs, inTurn, now]⟩

theorem session_got {d : Disk D} (h0 : ∀ o, d.ops o = none) (ssc : Nat) (ks : List Nat) {s : St D}
    (h : Run (start d (ks.map (stripeReq ssc))) s) (j : Nat) (hj : j < s.cli.got.length) :
    ∃ k, ks[j]? = some k ∧ s.cli.got[j] = (List.range ssc).map fun i => some (d.vol (k * ssc + i)) := by
  have hp := C78_so_far h0 h
  have hall : ∀ ks : List Nat, (inTurn d.vol ((ks.map (stripeReq ssc)).map Prod.snd)).2 =
      ks.map fun k => (List.range ssc).map fun i => some (d.vol (k * ssc + i)) := by
    intro ks
    induction ks with
    | nil => rfl
    | cons k ks ih => simp only [List.map_cons, inTurn, stripeReq, now, List.cons.injEq, true_and]; exact ih
  rw [hall] at hp
  have hl := hp.length_le
  rw [List.length_map] at hl
  refine ⟨ks[j], List.getElem?_eq_getElem (by omega), ?_⟩
  rw [hp.getElem hj, List.getElem_map]

/-- **C78** A session's answers: whatever stripes are asked for, the buffer sent for the `j`-th is that stripe of the device. -/
theorem C78_session {d : Disk D} (h0 : ∀ o, d.ops o = none) (ssc : Nat) (ks : List Nat) {s : St D}
    (h : Run (start d (ks.map (stripeReq ssc))) s) (j : Nat) (hj : j < s.cli.got.length) (zero : D) :
    ∃ k, ks[j]? = some k ∧ stripeBuf zero ssc s.cli.got[j] = (List.range ssc).map fun i => d.vol (k * ssc + i) := by
  obtain ⟨k, hk, hg⟩ := session_got h0 ssc ks h j hj
  refine ⟨k, hk, ?_⟩
  rw [hg]; simp [stripeBuf]

/-- **C78** The same in bytes: what a session sends for the `j`-th stripe asked for is what the server model (`Srv.readStripe`) sends from
these contents. This is what lets that model leave out channels and waiting. -/
theorem C78_serve {d : Disk Crypt.Sector} (h0 : ∀ o, d.ops o = none) (srv : Remote.Srv) (hd : ∀ x, srv.dev x = (d.vol x).val) (ks : List Nat)
    {s : St Crypt.Sector} (h : Run (start d (ks.map (stripeReq (Metadata.stripeSectorCount srv.md)))) s) (j : Nat)
    (hj : j < s.cli.got.length) (hok : srv.devOk j = true) :
    ∃ k, ks[j]? = some k ∧ srv.readStripe j k = some (Crypt.readBuf s.cli.got[j]) := by
  obtain ⟨k, hk, hg⟩ := session_got h0 _ ks h j hj
  refine ⟨k, hk, ?_⟩
  rw [hg]
  simp [Remote.Srv.readStripe, hok, Remote.sectors, Crypt.readBuf, List.flatMap_map, hd, Crypt.secBytes]

/-- **C78** A stripe of the image: it is refused exactly if it begins past the end of the image; otherwise the buffer sent is the stripe of the
image, continued with zeros. -/
theorem C78_source {d : Disk D} (h0 : ∀ o, d.ops o = none) (ssc size k : Nat) (zero : D) :
    (sourceReq (D := D) ssc size k = none ↔ size ≤ k * ssc) ∧
    ∀ q, sourceReq ssc size k = some q → ∀ s, Run (start d [q]) s → s.cli.finished → ∃ g, s.cli.got = [g] ∧
      stripeBuf zero ssc g = (List.range ssc).map fun i => if k * ssc + i < size then d.vol (k * ssc + i) else zero := by
  constructor
  · unfold sourceReq; split <;> simp <;> omega
  · intro q hq s h hf
    unfold sourceReq at hq
    split at hq
    · cases hq
    · rename_i hlt
      simp only [Option.some.injEq] at hq
      subst hq
      obtain ⟨_, h2, _⟩ := C78_in_turn h0 h hf
      refine ⟨_, by simpa [inTurn, now] using h2, ?_⟩
      apply List.ext_getElem
      · simp [stripeBuf]; omega
      · intro i hi1 hi2
        simp only [List.length_map, List.length_range] at hi2
        simp only [stripeBuf, List.getElem_append, List.length_map, List.length_range, List.getElem_map, List.getElem_range,
          Option.getD_some, List.getElem_replicate]
        by_cases hi : i < min ssc (size - k * ssc)
        · rw [dif_pos hi, if_pos (by omega)]
        · rw [dif_neg hi, if_neg (by omega)]

/-- **C78** Metadata that `save_to_bdev` reports as saved are on the device, also after a power loss. -/
theorem C78_save {v : Nat → Crypt.Sector} {buf : Bytes} {n : Nat} {s : St Crypt.Sector}
    (h : Run (start (Dev.fresh v) (saveReqs buf n)) s) (hf : s.cli.finished) :
    Disk.Run (Dev.fresh v) (Init.saveEvents buf n) s.disk ∧
    ∀ v', s.disk.survives v' → ∀ i, i < n → v' i = Crypt.sectorAt buf i := by
  obtain ⟨h1, h2, h3, h4, h5⟩ := C78_in_turn (fun _ => rfl) h hf
  constructor
  · rw [h2] at h5; exact h5
  · intro v' hv i hi
    rw [h4 [_] 1 rfl v' hv, h1]
    simp [saveReqs, inTurn, now, Crypt.bufData, covers, hi]

/-- **C78** Initialising a volume: once `init-metadata` has returned without an error, whatever schedule its two requests met, reading the
metadata back gives the metadata it wrote, after any other requests, power losses and restarts that do not write to the file. -/
theorem C78_init {st : Init.Setup} {node : Init.Node} {shift : UInt8} {job : Init.Job} (hj : Init.init st node shift = .ok job)
    {v : Nat → Crypt.Sector} {s : St Crypt.Sector} (h : Run (start (Dev.fresh v) (saveReqs job.buf (job.size / 512))) s)
    (hf : s.cli.finished) {later e3 : List (Ev Crypt.Sector)} {d : Disk Crypt.Sector} {q r : Nat} {out : List (Option Crypt.Sector)}
    (hr : Disk.Run s.disk (later ++ (Ev.issue q r (.read 0 (job.size / 512)) :: e3 ++ [Ev.resp q r true out])) d)
    (hq : ∀ x, x < job.size / 512 → quiet later x ∧ quiet e3 x) (ho : unanswered (q, r) e3) : Init.load out = .ok job.md := by
  refine Init.C49_durable hj (v := v) (d := d) ?_ hq ho
  rw [List.append_assoc]
  exact (C78_save h hf).1.trans hr

/-! ## Cases -/

/-- Saving metadata can succeed; then the image is what a power loss leaves. -/
example : ∃ s : St Crypt.Sector, Run (start (Dev.fresh fun _ => ⟨zeros 512, zeros_length 512⟩) (saveReqs (List.replicate 1024 7) 2)) s ∧
    s.cli.finished ∧ ∀ v', s.disk.survives v' → (v' 1).val = List.replicate 512 7 := by
  obtain ⟨s, h, hf⟩ := C78_can_finish (Dev.fresh fun _ => ⟨zeros 512, zeros_length 512⟩) (fun _ => rfl) (saveReqs (List.replicate 1024 7) 2)
  refine ⟨s, h, hf, fun v' hv => ?_⟩
  rw [(C78_save h hf).2 v' hv 1 (by omega)]
  decide +kernel

/-- Three stripes can be asked for, one of them twice. -/
example : ∃ s : St Nat, Run (start (Dev.fresh fun x => x) ([2, 0, 2].map (stripeReq 2))) s ∧
    s.cli.got = [[some 4, some 5], [some 0, some 1], [some 4, some 5]] := by
  obtain ⟨s, h, hf⟩ := C78_can_finish (Dev.fresh fun x => x) (fun _ => rfl) ([2, 0, 2].map (stripeReq 2))
  exact ⟨s, h, by rw [(C78_in_turn (fun _ => rfl) h hf).2.1]; rfl⟩

end Verif.Wait
