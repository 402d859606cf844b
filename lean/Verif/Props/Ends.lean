import Verif.Spec.Ends
import Verif.Props.ArchiveRead

/-! # C88: archiving and exporting come to an end -/

set_option maxRecDepth 8000

namespace Verif.Archive
open Verif Verif.Crypt Verif.Disk

variable {c : Cfg} {st0 : Name → Option Bytes}

/-! ## Archiving -/

/-- What the archiver may still do. -/
def left (c : Cfg) (s : St) : Nat :=
  match s.phase with
  | .running => 3 * (c.count - s.next) + 2 * s.fetching.length + s.puts.length + 5
  | .metaPut => s.puts.length + 3
  | .mapPut => s.puts.length + 1
  | .done | .failed => 0

theorem left_fail (s : St) : left c s.fail = 0 := rfl

theorem len_mid {α} {a b : List α} {x : α} : (a ++ x :: b).length = (a ++ b).length + 1 := by
  simp only [List.length_append, List.length_cons]; omega

theorem storeOnly_left {s s' : St} (h : StoreOnly s s') : left c s' = left c s := by
  obtain ⟨puts, store, rfl, hp⟩ := h
  have : puts.length = s.puts.length := by simpa using congrArg List.length hp
  unfold left
  simp only [this]

theorem step_left {s s' : St} {l : Lab} (hi : Inv c st0 s) (h : Step c s l s') : StoreOnly s s' ∨ left c s' < left c s := by
  have pos : ∀ p, s.phase = p → p ≠ .done → p ≠ .failed → 0 < left c s := by
    intro p hp h1 h2
    unfold left
    cases p <;> simp_all
  cases h with
  | skip hr hn h =>
    right; simp only [left, hr]; omega
  | panic hr hn e h => right; rw [left_fail]; exact pos _ hr (by simp) (by simp)
  | start hr hn h hf ok =>
    right
    cases ok
    · simpa [left_fail] using pos _ hr (by simp) (by simp)
    · simp only [if_true, left, hr, List.length_cons]; omega
  | fetchDone hr id hid ok buf hb =>
    right
    cases ok
    · simpa [left_fail] using pos _ hr (by simp) (by simp)
    · simp only [if_true]
      have hlt : (s.fetching.filter (· ≠ id)).length < s.fetching.length := by
        refine Nat.lt_of_le_of_ne (List.length_filter_le _ _) fun he => ?_
        have := List.length_filter_eq_length_iff.1 he id hid
        simp at this
      have key : left c (upload c s id buf) < left c s := by
        unfold upload
        rw [if_neg (by simpa using hid)]
        simp only
        split
        · rw [left_fail]; exact pos _ hr (by simp) (by simp)
        · simp only [left, hr]; omega
        · split
          · simp only [left, hr]; omega
          · simp only [left, hr, St.startPut, List.length_append, List.length_cons, List.length_nil]; omega
      exact key
  | exec a b n d x h =>
    left
    exact ⟨_, _, rfl, by simp [h]⟩
  | putDone hr a b n d x ok h hx =>
    right
    have hl : s.puts.length = (a ++ b).length + 1 := by rw [h, len_mid]
    split
    · simp only [left, hr]; omega
    · rw [left_fail]; exact pos _ hr (by simp) (by simp)
  | finish hr hn hf hi' =>
    right
    unfold finish
    split
    · rw [left_fail]; exact pos _ hr (by simp) (by simp)
    · split
      · rw [left_fail]; exact pos _ hr (by simp) (by simp)
      · simp only [left, hr, St.startPut, List.length_append, List.length_cons, List.length_nil]; omega
  | metaDone hr a b d x ok h hx =>
    right
    have hl : s.puts.length = (a ++ b).length + 1 := by rw [h, len_mid]
    cases ok
    · simpa [left_fail] using pos _ hr (by simp) (by simp)
    · simp only [if_true]
      unfold publish
      split
      · rw [left_fail]; exact pos _ hr (by simp) (by simp)
      · simp only [left, hr, St.startPut, List.length_append, List.length_cons, List.length_nil] at hl ⊢; omega
  | mapDone hr a b d x ok h hx =>
    right
    cases ok
    · simpa [left_fail] using pos _ hr (by simp) (by simp)
    · simpa [left] using pos _ hr (by simp) (by simp)
  | timeout hr =>
    right; rw [left_fail]
    rcases hr with hr | hr <;> exact pos _ hr (by simp) (by simp)

theorem Took.run {s s' : St} {n : Nat} {ls : List Lab} (h : Took c s n ls s') : Run c s ls s' := by
  induction h with
  | nil => exact .nil _
  | store _ hs _ ih => exact ih.snoc hs
  | work _ hs _ ih => exact ih.snoc hs

open Classical in
/-- Every run of the archiver is counted. -/
theorem C88_counted {s s' : St} {ls : List Lab} (h : Run c s ls s') : ∃ n, Took c s n ls s' := by
  induction h with
  | nil => exact ⟨0, .nil _⟩
  | @snoc s' s'' ls l _ hs ih =>
    obtain ⟨n, hn⟩ := ih
    by_cases h : StoreOnly s' s''
    · exact ⟨n, hn.store hs h⟩
    · exact ⟨n + 1, hn.work hs h⟩

/-- **C88** Archiving takes at most three steps per stripe and five more, whatever fails, in whatever order stripes are read and
uploads finish: only the store's own work is not counted. -/
theorem C88_archive_bounded {n : Nat} {ls : List Lab} {s : St} (h : Took c (St.init c st0) n ls s) : n ≤ 3 * c.count + 5 := by
  have key : n + left c s ≤ 3 * c.count + 5 := by
    induction h with
    | nil => simp [left, St.init]
    | store hr hs ho ih =>
      rw [storeOnly_left ho]; exact ih
    | work hr hs ho ih =>
      rcases step_left (run_inv hr.run) hs with h' | h'
      · exact absurd h' ho
      · omega
  omega

theorem left_run {s : St} (hp : s.phase = .running) : left c s = 3 * (c.count - s.next) + 2 * s.fetching.length + s.puts.length + 5 := by
  simp only [left, hp]

theorem SmoothRun.run {s s' : St} {ls : List Lab} (h : SmoothRun c s ls s') : Run c s ls s' := by
  induction h with
  | nil => exact .nil _
  | snoc _ hs ih => exact ih.snoc hs.1

/-- While metadata.json or stripe-mapping is being stored there is an upload to wait for. -/
theorem puts_pos {ls : List Lab} {s : St} (h : Run c (St.init c st0) ls s) (hp : s.phase = .metaPut ∨ s.phase = .mapPut) : s.puts ≠ [] := by
  induction h with
  | nil => simp [St.init] at hp
  | @snoc s s' ls l _ hs ih =>
    have stay : ∀ {p : Phase}, s.phase = p → s'.phase = s.phase → p = .running → False := by
      intro p h1 h2 h3
      rw [h2, h1, h3] at hp
      simp at hp
    cases hs with
    | skip hr hn h => exact (stay hr rfl rfl).elim
    | panic hr hn e h => simp [St.fail] at hp
    | start hr hn h hf ok =>
      cases ok
      · simp [St.fail] at hp
      · exact (stay hr rfl rfl).elim
    | fetchDone hr id hid ok buf hb =>
      exfalso
      cases ok
      · simp [St.fail] at hp
      · have h1 : (upload c s id buf).phase = .failed ∨ (upload c s id buf).phase = .running := by
          unfold upload
          rw [if_neg (by simpa using hid)]
          simp only
          split
          · exact .inl rfl
          · exact .inr hr
          · right; split <;> simp [St.startPut, hr]
        simp only [if_true] at hp
        rcases h1 with h1 | h1 <;> simp [h1] at hp
    | exec a b n d x h => simp
    | putDone hr a b n d x ok h hx =>
      split at hp
      · simp [hr] at hp
      · simp [St.fail] at hp
    | finish hr hn hf hi' =>
      unfold finish at hp ⊢
      split at hp
      · simp [St.fail] at hp
      · split at hp
        · simp [St.fail] at hp
        · simp_all [St.startPut]
    | metaDone hr a b d x ok h hx =>
      cases ok
      · simp [St.fail] at hp
      · simp only [if_true] at hp ⊢
        unfold publish at hp ⊢
        split at hp
        · simp [St.fail] at hp
        · simp_all [St.startPut]
    | mapDone hr a b d x ok h hx =>
      cases ok
      · simp [St.fail] at hp
      · simp at hp
    | timeout hr => simp [St.fail] at hp

/-- **C88** As long as archiving has not ended it goes on, with nothing going wrong: after the store has done at most one thing, a step
of the archiver is possible. So with at least one buffer it waits only for reads and uploads that are under way. -/
theorem C88_archive_goes_on {ls : List Lab} {s : St} (h : Run c (St.init c st0) ls s) (hc : 0 < c.conc) (hl : ¬ s.over) :
    ∃ s1 l s', (s1 = s ∨ Smooth c s .tau s1 ∧ StoreOnly s s1) ∧ Smooth c s1 l s' ∧ ¬ StoreOnly s1 s' := by
  have hi := run_inv h
  have now : ∀ {l s'}, Smooth c s l s' → ¬ StoreOnly s s' →
      ∃ s1 l s', (s1 = s ∨ Smooth c s .tau s1 ∧ StoreOnly s s1) ∧ Smooth c s1 l s' ∧ ¬ StoreOnly s1 s' :=
    fun {l s'} hs hne => ⟨s, l, s', .inl rfl, hs, hne⟩
  have ne : ∀ {s1 s' : St}, left c s' < left c s1 → ¬ StoreOnly s1 s' := fun hlt ho => Nat.ne_of_lt hlt (storeOnly_left ho)
  -- a put is carried out, then its answer arrives
  have put : ∀ {n d x ps}, s.puts = (n, d, x) :: ps → ∃ s1, Smooth c s .tau s1 ∧ StoreOnly s s1 ∧ s1.phase = s.phase ∧
      s1.inflight = s.inflight ∧ s1.puts = (n, d, true) :: ps := by
    intro n d x ps he
    have st := Step.exec (c := c) s [] ps n d x (by simpa using he)
    refine ⟨_, ⟨st, by simp, by simp, ?_, ?_⟩, ⟨_, _, rfl, by simp [he]⟩, rfl, rfl, rfl⟩
    · intro _ h _ _; simp [h]
    · rintro _ (h | h) <;> simp [h]
  cases hp : s.phase with
  | done => exact absurd (.inl hp) hl
  | failed => exact absurd (.inr hp) hl
  | running =>
    have hr := (hi.running hp).1
    have hfetch : s.fetching ≠ [] → ∃ s1 l s', (s1 = s ∨ Smooth c s .tau s1 ∧ StoreOnly s s1) ∧ Smooth c s1 l s' ∧ ¬ StoreOnly s1 s' := by
      intro hne
      obtain ⟨id, hid⟩ := List.exists_mem_of_ne_nil _ hne
      have st := Step.fetchDone (c := c) s hp id hid true (zeros (c.ssc * 512)) (by simp)
      refine now ⟨st, by simp, by simp, by simp, by simp⟩ (ne ?_)
      rcases step_left hi st with ho | ho
      · exfalso
        obtain ⟨pu, sto, he, -⟩ := ho
        have h1 : (upload c s id (zeros (c.ssc * 512))).phase = .failed ∨ id ∉ (upload c s id (zeros (c.ssc * 512))).fetching := by
          unfold upload
          rw [if_neg (by simpa using hid)]
          simp only
          split
          · exact .inl rfl
          · right; simp
          · right; split <;> simp [St.startPut]
        simp only [if_true] at he
        have e1 := congrArg St.phase he
        have e2 := congrArg St.fetching he
        simp only at e1 e2
        rcases h1 with h1 | h1
        · rw [h1, hp] at e1; cases e1
        · rw [e2] at h1; exact h1 hid
      · exact ho
    rcases Nat.lt_or_ge s.next c.count with hn | hn
    · cases ha : shouldArchive c s.next with
      | error e =>
        exact now ⟨.panic s hp hn e ha, by simp, by simp, by simp [ha], by simp [hp]⟩ (ne (by rw [left_fail, left_run hp]; omega))
      | ok b =>
        cases b with
        | false =>
          refine now ⟨.skip s hp hn ha, by simp, by simp, by simp [ha], by simp [hp]⟩ (ne ?_)
          rw [left_run hp, left_run (by simpa using hp)]
          simp only; omega
        | true =>
          rcases Nat.eq_zero_or_pos s.free with h0 | h0
          · exact hfetch fun he => by have := hr.pool; simp [h0, he] at this; omega
          · refine now ⟨.start s hp hn ha h0 true, by simp, by simp, by simp [hp], by simp [hp]⟩ (ne ?_)
            rw [left_run hp, left_run (by simpa using hp)]
            simp only [if_true, List.length_cons]; omega
    · have hn' : s.next = c.count := Nat.le_antisymm hr.next hn
      by_cases hf : s.fetching = []
      · by_cases h0 : s.inflight = 0
        · refine now ⟨.finish s hp hn' hf h0, by simp, by simp, by simp [hn'], by simp [hp]⟩ fun ho => ?_
          obtain ⟨pu, st, he, -⟩ := ho
          have hph : (finish c s).phase ≠ .running := by
            unfold finish
            split
            · simp [St.fail]
            · split <;> simp [St.fail, St.startPut]
          rw [he] at hph
          exact hph hp
        · have : s.puts ≠ [] := fun he => h0 (by rw [hr.inflight, he]; rfl)
          obtain ⟨⟨n, d, x⟩, ps, he⟩ := List.exists_cons_of_ne_nil this
          obtain ⟨s1, g1, g2, g3, g4, g5⟩ := put he
          rw [hp] at g3
          have st := Step.putDone (c := c) s1 g3 [] ps n d true true (by simpa using g5) (by simp)
          refine ⟨s1, _, _, .inr ⟨g1, g2⟩, ⟨st, by simp, by simp, by simp, by simp⟩, ne ?_⟩
          have : 0 < s1.inflight := by omega
          simp only [this, decide_true, Bool.and_self, if_true, List.nil_append]
          rw [left_run g3, left_run (by simpa using g3)]
          simp only [g5, List.length_cons]; omega
      · exact hfetch hf
  | metaPut =>
    obtain ⟨⟨n, d, x⟩, ps, he⟩ := List.exists_cons_of_ne_nil (puts_pos h (.inl hp))
    have hn : n = metadataName := by have := hi.single (.inl hp) n d x (by simp [he]); simpa [hp] using this
    subst hn
    obtain ⟨s1, g1, g2, g3, g4, g5⟩ := put he
    rw [hp] at g3
    have st := Step.metaDone (c := c) s1 g3 [] ps d true true (by simpa using g5) (by simp)
    refine ⟨s1, _, _, .inr ⟨g1, g2⟩, ⟨st, by simp, by simp, by simp, by simp⟩, fun ho => ?_⟩
    obtain ⟨pu, sto, e, -⟩ := ho
    have hph := congrArg St.phase e
    simp only [if_true, g3] at hph
    unfold publish at hph
    split at hph
    · simp [St.fail] at hph
    · simp [St.startPut] at hph
  | mapPut =>
    obtain ⟨⟨n, d, x⟩, ps, he⟩ := List.exists_cons_of_ne_nil (puts_pos h (.inr hp))
    have hn : n = mappingName := by have := hi.single (.inr hp) n d x (by simp [he]); simpa [hp] using this
    subst hn
    obtain ⟨s1, g1, g2, g3, g4, g5⟩ := put he
    rw [hp] at g3
    have st := Step.mapDone (c := c) s1 g3 [] ps d true true (by simpa using g5) (by simp)
    refine ⟨s1, _, _, .inr ⟨g1, g2⟩, ⟨st, by simp, by simp, by simp, by simp⟩, fun ho => ?_⟩
    obtain ⟨pu, sto, e, -⟩ := ho
    have hph := congrArg St.phase e
    simp [g3] at hph

/-- The archiver has everything it needs: the metadata covers the volume, every stripe can be made into an object, and the mapping
and metadata.json can be produced. -/
structure Able (c : Cfg) : Prop where
  buffers : 0 < c.conc
  headers : c.count ≤ c.headers.length
  object : ∀ id buf, id < c.count → buf.length = c.ssc * 512 → ∃ o, makeObject c id buf = .ok o
  mapping : ∀ m, ∃ b, serializeMapping c.P m c.hkey c.keys = .ok b
  metadata : ∃ m, archiveMeta c = .ok m

theorem should_ok (h : c.count ≤ c.headers.length) {id : Nat} (hid : id < c.count) : ∃ b, shouldArchive c id = .ok b := by
  unfold shouldArchive
  rw [List.getElem?_eq_getElem (by omega)]
  exact ⟨_, rfl⟩

/-- **C88** With nothing going wrong, archiving does not fail. -/
theorem C88_archive_not_failed {ls : List Lab} {s : St} (ha : Able c) (h : SmoothRun c (St.init c st0) ls s) : s.phase ≠ .failed := by
  induction h with
  | nil => simp [St.init]
  | @snoc s s' ls l hr hs ih =>
    have hi := run_inv hr.run
    obtain ⟨st, n1, n2, n3, n4⟩ := hs
    cases st with
    | skip hr hn h => simp [hr]
    | panic hr hn e h =>
      obtain ⟨b, hb⟩ := should_ok ha.headers hn
      rw [hb] at h; cases h
    | start hr hn h hf ok => exact n3 rfl hr hn h
    | fetchDone hr id hid ok buf hb =>
      cases ok
      · exact absurd rfl (n1 id buf)
      · have hlt : id < c.count := by
          have := (hi.running hr).1
          rcases Nat.lt_or_ge id s.next with h | h
          · exact Nat.lt_of_lt_of_le h this.next
          · exact absurd hid (this.future id h).1
        obtain ⟨o, ho⟩ := ha.object id buf hlt hb
        simp only [if_true]
        unfold upload
        rw [if_neg (by simpa using hid)]
        simp only [ho]
        cases o with
        | none => simp [hr]
        | some o => simp only; split <;> simp [St.startPut, hr]
    | exec a b n d x h => exact ih
    | putDone hr a b n d x ok h hx =>
      cases ok
      · exact absurd rfl (n2 n)
      · have : 0 < s.inflight := by
          rw [(hi.running hr).1.inflight, h, len_mid]; omega
        simp [this, hr]
    | finish hr hn hf hi' =>
      obtain ⟨b, hb⟩ := ha.mapping (entries c.count s.hashes)
      obtain ⟨m, hm⟩ := ha.metadata
      simp [finish, hb, hm, St.startPut]
    | metaDone hr a b d x ok h hx =>
      cases ok
      · exact absurd rfl (n2 _)
      · obtain ⟨b, hb⟩ := ha.mapping (entries c.count s.hashes)
        simp [publish, hb, St.startPut]
    | mapDone hr a b d x ok h hx =>
      cases ok
      · exact absurd rfl (n2 _)
      · simp
    | timeout hr => exact n4 rfl hr

/-- **C88** Archiving comes to its end: with nothing going wrong, whatever has happened so far, a run that goes on until the
archiver has nothing more to do has made the archive. -/
theorem C88_archive_ends {ls : List Lab} {s : St} (ha : Able c) (h : SmoothRun c (St.init c st0) ls s)
    (hrest : ∀ ls' s1 l s', SmoothRun c s ls' s1 → Smooth c s1 l s' → StoreOnly s1 s') : s.phase = .done := by
  by_cases ho : s.over
  · exact ho.resolve_right (C88_archive_not_failed ha h)
  · obtain ⟨s1, l, s', h1, h2, h3⟩ := C88_archive_goes_on h.run ha.buffers ho
    rcases h1 with rfl | ⟨h1, -⟩
    · exact absurd (hrest _ _ _ _ (.nil _) h2) h3
    · exact absurd (hrest _ _ _ _ ((SmoothRun.nil _).snoc h1) h2) h3

theorem SmoothRun.append {s s' s'' : St} {a b : List Lab} (h1 : SmoothRun c s a s') (h2 : SmoothRun c s' b s'') : SmoothRun c s (a ++ b) s'' := by
  induction h2 with
  | nil => simpa using h1
  | snoc _ hs ih => rw [← List.append_assoc]; exact ih.snoc hs

/-- **C88** The end is always within reach: whatever has happened so far, if nothing goes wrong from now on the archive gets made. -/
theorem C88_archive_reached {ls : List Lab} {s : St} (ha : Able c) (h : SmoothRun c (St.init c st0) ls s) :
    ∃ ls' s', SmoothRun c s ls' s' ∧ s'.phase = .done := by
  generalize hn : left c s = n
  induction n using Nat.strongRecOn generalizing ls s with
  | ind n ih =>
    by_cases ho : s.over
    · exact ⟨[], s, .nil _, ho.resolve_right (C88_archive_not_failed ha h)⟩
    · obtain ⟨s1, l, s', h1, h2, h3⟩ := C88_archive_goes_on h.run ha.buffers ho
      have go : ∃ ls1, SmoothRun c s ls1 s1 ∧ left c s1 = left c s := by
        rcases h1 with rfl | ⟨g1, g2⟩
        · exact ⟨_, .nil _, rfl⟩
        · exact ⟨_, (SmoothRun.nil _).snoc g1, storeOnly_left g2⟩
      obtain ⟨ls1, g1, g2⟩ := go
      have g3 := h.append g1
      rcases step_left (run_inv g3.run) h2.1 with hl | hl
      · exact absurd hl h3
      · obtain ⟨ls2, s2, r1, r2⟩ := ih (left c s') (by omega) (g3.snoc h2) rfl
        exact ⟨_, s2, (g1.snoc h2).append r1, r2⟩

/-! ## Exporting -/

variable {P : Prims} {src : Src} {store : Name → Option Bytes}

/-- What the export may still do. -/
def eleft (src : Src) (e : Ex) : Nat :=
  match e.phase with
  | .running => 2 * (src.stripes - e.next) + e.rd.gets.length + e.rd.finished.length + 1
  | .done | .failed => 0

theorem eleft_run {e : Ex} (h : e.phase = .running) :
    eleft src e = 2 * (src.stripes - e.next) + e.rd.gets.length + e.rd.finished.length + 1 := by simp only [eleft, h]

theorem waits_left {e e' : Ex} (h : Waits e e') : eleft src e' = eleft src e := by
  obtain ⟨g, rfl, hg⟩ := h
  unfold eleft
  simp only [hg]

theorem ones_fields (S : Nat) (L : List (Nat × Bool × Nat)) (e : Ex) :
    (L.foldl (Ex.one S) e).next = e.next ∧ (L.foldl (Ex.one S) e).rd = e.rd ∧
    (e.phase = .running → (L.foldl (Ex.one S) e).phase = .running ∨ (L.foldl (Ex.one S) e).phase = .failed) := by
  induction L generalizing e with
  | nil => exact ⟨rfl, rfl, .inl⟩
  | cons c L ih =>
    simp only [List.foldl_cons]
    obtain ⟨h1, h2, h3⟩ := ih (Ex.one S e c)
    have h4 : (Ex.one S e c).next = e.next ∧ (Ex.one S e c).rd = e.rd ∧
        (e.phase = .running → (Ex.one S e c).phase = .running ∨ (Ex.one S e c).phase = .failed) := by
      unfold Ex.one
      split
      · exact ⟨rfl, rfl, .inl⟩
      · split
        · exact ⟨rfl, rfl, fun _ => .inr rfl⟩
        · split
          · exact ⟨rfl, rfl, .inl⟩
          · exact ⟨rfl, rfl, .inl⟩
    refine ⟨h1.trans h4.1, h2.trans h4.2.1, fun hr => ?_⟩
    rcases h4.2.2 hr with h | h
    · exact h3 h
    · right; rw [ones_failed L h]; exact h

/-- The reads the store still works on after a poll. -/
theorem poll_rd {out : List (Nat × Bool × Nat)} {b0 : Nat → Bytes} {s : Rd} (h : RInv P src store b0 out s) {cs : List (Name × Option Bytes)}
    {rest : List Name} (ha : Answers store s.gets cs rest) : (s.poll P src cs rest).2.gets = rest ∧ (s.poll P src cs rest).2.finished = [] := by
  have h0 : Led P src store b0 out [] [] { s with gets := rest } :=
    ⟨h.led.names, h.led.key, h.led.wait, h.led.extra, h.led.ledger, h.led.ids, h.led.len, h.led.good⟩
  exact ⟨(completes_led cs h0 ha.2).2.2.1, rfl⟩

theorem estep_left {e e' : Ex} (h : ERun P src store e) (hs : EStep P src store e e') : Waits e e' ∨ eleft src e' < eleft src e := by
  cases hs with
  | submit hr hl hn =>
    right
    rw [eleft_run hr]
    unfold Ex.submit
    split
    · rw [eleft_run (by simpa using hr)]; simp only; omega
    · rw [eleft_run (by simpa using hr)]
      simp only
      have : (e.rd.request src e.next).gets.length + (e.rd.request src e.next).finished.length ≤ e.rd.gets.length + e.rd.finished.length + 1 := by
        unfold Rd.request
        simp only
        split
        · simp; omega
        · unfold Rd.startFetch; simp only; split <;> simp <;> omega
        · simp; omega
      omega
  | poll hr cs rest ha =>
    rcases erun_inv h with hf | ⟨hi, -⟩
    · rw [hr] at hf; cases hf
    obtain ⟨out, hrd, -⟩ := hi.rd
    obtain ⟨g1, g2⟩ := poll_rd hrd ha
    have hlen := ha.1.length_eq
    simp only [List.length_append, List.length_map] at hlen
    by_cases h0 : cs = [] ∧ e.rd.finished = []
    · left
      obtain ⟨rfl, h0⟩ := h0
      refine ⟨rest, ?_, by simpa using hlen.symm⟩
      simp only [Ex.poll, Rd.poll, List.foldl_nil, h0]
    · right
      have hpos : 0 < cs.length + e.rd.finished.length := by
        rcases Nat.eq_zero_or_pos (cs.length + e.rd.finished.length) with h | h
        · exact absurd ⟨List.length_eq_zero_iff.1 (by omega), List.length_eq_zero_iff.1 (by omega)⟩ h0
        · exact h
      obtain ⟨f1, f2, f3⟩ := ones_fields (src.ssc * 512) (e.rd.poll P src cs rest).1 { e with rd := (e.rd.poll P src cs rest).2 }
      have f3 := f3 hr
      rw [eleft_run hr]
      unfold Ex.poll
      simp only
      rcases f3 with f3 | f3
      · rw [eleft_run f3, f1, f2]
        simp only [g1, g2, List.length_nil]; omega
      · simp only [eleft, f3]; omega
  | done hr hw =>
    right
    rw [eleft_run hr]; simp only [eleft]; omega

theorem ETook.run {n : Nat} {e : Ex} (h : ETook P src store n e) : ERun P src store e := by
  induction h with
  | init => exact .init
  | wait _ hs _ ih => exact ih.step hs
  | work _ hs _ ih => exact ih.step hs

open Classical in
/-- Every run of an export is counted. -/
theorem C88_export_counted {e : Ex} (h : ERun P src store e) : ∃ n, ETook P src store n e := by
  induction h with
  | init => exact ⟨0, .init⟩
  | @step e e' _ hs ih =>
    obtain ⟨n, hn⟩ := ih
    by_cases h : Waits e e'
    · exact ⟨n, hn.wait hs h⟩
    · exact ⟨n + 1, hn.work hs h⟩

/-- **C88** An export takes at most two steps per stripe of the archive and one more, not counting looks at a store that has not
answered. -/
theorem C88_export_bounded {n : Nat} {e : Ex} (h : ETook P src store n e) : n ≤ 2 * src.stripes + 1 := by
  have key : n + eleft src e ≤ 2 * src.stripes + 1 := by
    induction h with
    | init => simp [eleft, Ex.init]
    | wait hr hs ho ih => rw [waits_left ho]; exact ih
    | work hr hs ho ih =>
      rcases estep_left hr.run hs with h' | h'
      · exact absurd h' ho
      · omega
  omega

theorem EServedStep.step {e e' : Ex} (h : EServedStep P src store e e') : EStep P src store e e' := by
  cases h with
  | submit h1 h2 h3 => exact .submit _ h1 h2 h3
  | poll cs rest h1 h2 h3 => exact .poll _ h1 cs rest h2
  | done h1 h2 => exact .done _ h1 h2

theorem EServed.append {a b d : Ex} (h1 : EServed P src store a b) (h2 : EServed P src store b d) : EServed P src store a d := by
  induction h2 with
  | nil => exact h1
  | snoc _ hs ih => exact ih.snoc hs

theorem EServed.erun {e : Ex} (h : EServed P src store (Ex.init src) e) : ERun P src store e := by
  induction h with
  | nil => exact .init
  | snoc _ hs ih => exact ih.step hs.step

/-- Something can happen in a running export; the answer given is the store's own if it has the object. -/
theorem estep_exists {e : Ex} (h : ERun P src store e) (hp : e.phase = .running) :
    ∃ e', ¬ Waits e e' ∧ (EServedStep P src store e e' ∨ ∃ n rest, n ∈ e.rd.gets ∧ store n = none ∧ Answers store e.rd.gets [(n, none)] rest ∧
      e' = e.poll P src [(n, none)] rest) := by
  rcases erun_inv h with hf | ⟨hi, -⟩
  · rw [hp] at hf; cases hf
  have ne : ∀ {e' : Ex}, EStep P src store e e' → (Waits e e' → False) → ¬ Waits e e' := fun _ h => h
  obtain ⟨out, hrd, -⟩ := hi.rd
  have hfin : ∀ cs rest, Answers store e.rd.gets cs rest → ((e.poll P src cs rest).rd).gets = rest ∧ ((e.poll P src cs rest).rd).finished = [] := by
    intro cs rest ha
    have f := (ones_fields (src.ssc * 512) (e.rd.poll P src cs rest).1 { e with rd := (e.rd.poll P src cs rest).2 }).2.1
    have g := poll_rd hrd ha
    unfold Ex.poll
    simp only [f]
    exact g
  by_cases hw : e.written < src.stripes
  · by_cases hs : e.inflight.length < 16 ∧ e.next < src.stripes
    · refine ⟨_, ?_, .inl (.submit e hp hs.1 hs.2)⟩
      rintro ⟨g, he, -⟩
      have := congrArg Ex.next he
      simp only [Ex.submit] at this
      split at this <;> simp at this
    · have hne : e.inflight ≠ [] := by
        intro h0
        have := hi.count.1
        rw [h0] at hs this
        simp at hs this
        omega
      have howed := hi.owed
      simp only [List.map_nil, List.nil_append] at howed
      by_cases hf : e.rd.finished = []
      · rw [hf] at howed
        simp only [List.map_nil, List.nil_append] at howed
        have hpe : e.rd.pending ≠ [] := by
          intro h0
          simp only [Rd.waiting, h0, List.flatMap_nil] at howed
          exact hne howed.eq_nil
        have hg : e.rd.gets ≠ [] := by
          intro h0
          have := hrd.gets
          rw [h0] at this
          have := this.symm.eq_nil
          simp at this
          exact hpe this
        obtain ⟨n, rest, hg⟩ := List.exists_cons_of_ne_nil hg
        cases hst : store n with
        | none =>
          have ha : Answers store e.rd.gets [(n, none)] rest := ⟨by simp [hg], by simp⟩
          refine ⟨_, ?_, .inr ⟨n, rest, by simp [hg], hst, ha, rfl⟩⟩
          rintro ⟨g, he, hl⟩
          have h1 := (hfin _ _ ha).1
          rw [he] at h1
          simp only at h1
          rw [h1, hg] at hl
          simp at hl
        | some d =>
          have ha : Answers store e.rd.gets [(n, some d)] rest := by
            refine ⟨by simp [hg], ?_⟩
            intro m d' hm
            simp only [List.mem_singleton, Prod.mk.injEq, Option.some.injEq] at hm
            rw [hm.1, hm.2]; exact hst
          refine ⟨_, ?_, .inl (.poll e [(n, some d)] rest hp ha (by simp))⟩
          rintro ⟨g, he, hl⟩
          have h1 := (hfin _ _ ha).1
          rw [he] at h1
          simp only at h1
          rw [h1, hg] at hl
          simp at hl
      · have ha : Answers store e.rd.gets [] e.rd.gets := ⟨by simp, by simp⟩
        refine ⟨_, ?_, .inl (.poll e [] e.rd.gets hp ha (by simp))⟩
        rintro ⟨g, he, hl⟩
        have h1 := (hfin _ _ ha).2
        rw [he] at h1
        exact hf h1
  · refine ⟨_, ?_, .inl (.done e hp hw)⟩
    rintro ⟨g, he, -⟩
    have := congrArg Ex.phase he
    simp [hp] at this

/-- **C88** As long as an export has not ended it goes on: it waits only for reads the store was given. -/
theorem C88_export_goes_on {e : Ex} (h : ERun P src store e) (hp : e.phase = .running) :
    ∃ e', EStep P src store e e' ∧ ¬ Waits e e' := by
  obtain ⟨e', h1, h2⟩ := estep_exists h hp
  refine ⟨e', ?_, h1⟩
  rcases h2 with h2 | ⟨n, rest, -, -, ha, rfl⟩
  · exact h2.step
  · exact .poll _ hp _ _ ha

theorem ones_ok {S : Nat} (L : List (Nat × Bool × Nat)) {e : Ex} (h : e.phase = .running) (hL : ∀ x ∈ L, x.2.1 = true) :
    (L.foldl (Ex.one S) e).phase = .running := by
  induction L generalizing e with
  | nil => exact h
  | cons c L ih =>
    refine ih ?_ fun x hx => hL x (.tail _ hx)
    unfold Ex.one
    rw [if_neg (by simp [h]), if_neg (by simp [hL c (.head _)])]
    split <;> exact h

theorem readable_all (hr : ∀ i, i < src.stripes → ∃ b, readStripe P src store i (src.ssc * 512) = .ok b) (i : Nat) :
    ∃ b, readStripe P src store i (src.ssc * 512) = .ok b := by
  by_cases h : src.hasStripe i = true
  · exact hr i (stripes_cover h)
  · simp only [Src.hasStripe, Bool.not_eq_true, Option.isSome_eq_false_iff, Option.isNone_iff_eq_none] at h
    simp [readStripe, h]

/-- The history of an export's stripe source, and that no stripe of it failed. -/
theorem served_source {e : Ex} (h : EServed P src store (Ex.init src) e)
    (hr : ∀ i, i < src.stripes → ∃ b, readStripe P src store i (src.ssc * 512) = .ok b) :
    (∃ out, ServedRun P src store { bufs := fun _ => zeros (src.ssc * 512) } out e.rd) ∧ e.phase ≠ .failed := by
  induction h with
  | nil => exact ⟨⟨[], .nil⟩, by simp [Ex.init]⟩
  | @snoc e e' _ hs ih =>
    obtain ⟨⟨out, ho⟩, -⟩ := ih
    cases hs with
    | submit h1 h2 h3 =>
      unfold Ex.submit
      split
      · exact ⟨⟨out, ho⟩, by simp [h1]⟩
      · exact ⟨⟨out, ho.request _⟩, by simp [h1]⟩
    | poll cs rest h1 h2 h3 =>
      have hp := ho.poll cs rest h2 h3
      have f := (ones_fields (src.ssc * 512) (e.rd.poll P src cs rest).1 { e with rd := (e.rd.poll P src cs rest).2 }).2.1
      refine ⟨⟨_, by unfold Ex.poll; simp only [f]; exact hp⟩, ?_⟩
      have : (e.poll P src cs rest).phase = .running := by
        refine ones_ok _ h1 fun x hx => ?_
        obtain ⟨b, hb⟩ := readable_all hr x.1
        exact (C28_served hp (id := x.1) (r := x.2.2) (ok := x.2.1) (List.mem_append_right _ hx) (by simpa using hb)).1
      simp [this]
    | done h1 h2 => exact ⟨⟨out, ho⟩, by simp⟩

/-- **C88** An export from a store that answers, of an archive whose stripes can be read, does not fail. -/
theorem C88_export_not_failed {e : Ex} (h : EServed P src store (Ex.init src) e)
    (hr : ∀ i, i < src.stripes → ∃ b, readStripe P src store i (src.ssc * 512) = .ok b) : e.phase ≠ .failed := (served_source h hr).2

/-- A read is only started for a stripe. -/
theorem pend_ne {e : Ex} (h : ERun P src store e) : e.phase = .failed ∨ ∀ p ∈ e.rd.pending, p.stripes ≠ [] := by
  induction h with
  | init => right; simp [Ex.init]
  | @step e e' hr hs ih =>
    cases hs with
    | submit h1 h2 h3 =>
      right
      have ih := ih.resolve_left (by simp [h1])
      unfold Ex.submit
      split
      · exact ih
      · simp only [Rd.request]
        split
        · exact ih
        · unfold Rd.startFetch
          simp only
          split
          · intro p hp
            simp only [List.mem_map] at hp
            obtain ⟨q, hq, rfl⟩ := hp
            split
            · simp
            · exact ih q hq
          · intro p hp
            simp only [List.mem_append, List.mem_singleton] at hp
            rcases hp with hp | rfl
            · exact ih p hp
            · simp
        · exact ih
    | poll h1 cs rest ha =>
      right
      have ih := ih.resolve_left (by simp [h1])
      rcases erun_inv hr with hf | ⟨hi, -⟩
      · rw [h1] at hf; cases hf
      obtain ⟨out, hrd, -⟩ := hi.rd
      have h0 : Led P src store _ out [] [] { e.rd with gets := rest } :=
        ⟨hrd.led.names, hrd.led.key, hrd.led.wait, hrd.led.extra, hrd.led.ledger, hrd.led.ids, hrd.led.len, hrd.led.good⟩
      have hpe := (completes_led cs h0 ha.2).2.1
      have f := (ones_fields (src.ssc * 512) (e.rd.poll P src cs rest).1 { e with rd := (e.rd.poll P src cs rest).2 }).2.1
      intro p hp
      unfold Ex.poll at hp
      simp only [f] at hp
      simp only [Rd.poll, hpe] at hp
      exact ih p (List.mem_filter.1 hp).1
    | done h1 h2 => exact .inr (ih.resolve_left (by simp [h1]))

/-- **C88** An export from a store that answers, of an archive whose stripes can be read, comes to its end: whatever has happened so
far, the file gets finished if the store goes on answering, and a run that cannot go on has finished it. -/
theorem C88_export_ends {e : Ex} (h : EServed P src store (Ex.init src) e)
    (hr : ∀ i, i < src.stripes → ∃ b, readStripe P src store i (src.ssc * 512) = .ok b) :
    (∃ e', EServed P src store e e' ∧ e'.phase = .done) ∧
    ((∀ e', EServedStep P src store e e' → Waits e e') → e.phase = .done) := by
  have next : ∀ {e : Ex}, EServed P src store (Ex.init src) e → e.phase = .running → ∃ e', EServedStep P src store e e' ∧ ¬ Waits e e' := by
    intro e h hp
    obtain ⟨e', h1, h2 | ⟨n, rest, hn, hst, -⟩⟩ := estep_exists h.erun hp
    · exact ⟨e', h2, h1⟩
    · exfalso
      rcases erun_inv h.erun with hf | ⟨hi, -⟩
      · rw [hp] at hf; cases hf
      obtain ⟨out, hrd, -⟩ := hi.rd
      have := hrd.gets.mem_iff.1 hn
      obtain ⟨p, hp1, rfl⟩ := List.mem_map.1 this
      obtain ⟨x, hx⟩ := List.exists_mem_of_ne_nil _ ((pend_ne h.erun).resolve_left (by simp [hp]) p hp1)
      obtain ⟨b, hb⟩ := readable_all hr x.1
      rw [hrd.led.key p hp1] at hst
      simp [readStripe, (hrd.led.wait p hp1 x hx).2, hst] at hb
  refine ⟨?_, fun hrest => ?_⟩
  · generalize hn : eleft src e = n
    induction n using Nat.strongRecOn generalizing e with
    | ind n ih =>
      cases hp : e.phase with
      | done => exact ⟨e, .nil _, hp⟩
      | failed => exact absurd hp (C88_export_not_failed h hr)
      | running =>
        obtain ⟨e1, h1, h2⟩ := next h hp
        rcases estep_left h.erun h1.step with hl | hl
        · exact absurd hl h2
        · obtain ⟨e2, g1, g2⟩ := ih (eleft src e1) (by omega) (h.snoc h1) rfl
          exact ⟨e2, ((EServed.nil _).snoc h1).append g1, g2⟩
  · cases hp : e.phase with
    | done => rfl
    | failed => exact absurd hp (C88_export_not_failed h hr)
    | running =>
      obtain ⟨e1, h1, h2⟩ := next h hp
      exact absurd (hrest e1 h1) h2

/-- **C88** A finished archive can be exported: whatever has happened so far, with a store that answers the export gets to its end, and
ends in no other way. -/
theorem C88_archive_exports {ls : List Lab} {s : St} {e : Ex} (hc : c.Ok) (h : Run c (St.init c st0) ls s) (hd : s.phase = .done)
    (hl : (c.P.encMap (entries c.count s.hashes)).length < 2 ^ 64) (hn : NoCollision c s)
    (hs : openArchive c.P c.kek s.store = .ok src) (he : EServed c.P src s.store (Ex.init src) e) :
    e.phase ≠ .failed ∧ ∃ e', EServed c.P src s.store e e' ∧ e'.phase = .done := by
  have hr : ∀ i, i < src.stripes → ∃ b, readStripe c.P src s.store i (src.ssc * 512) = .ok b := by
    obtain ⟨src', h1, h2, h3⟩ := C22_restore hc h hd hl hn
    have ho := open_done hc (run_inv h) hd hl
    rw [hs] at h1 ho
    simp only [Except.ok.injEq] at h1 ho
    subst h1
    intro i _
    rcases Nat.lt_or_ge i c.count with hi | hi
    · rcases h3 i hi with ⟨-, buf, -, -, h5⟩ | ⟨-, -, h5⟩
      · exact ⟨_, h5 _ (by rw [h2])⟩
      · exact ⟨_, h5 _⟩
    · have : tableOf src.table i = none := by
        rw [ho]; simp only; rw [tableOf_entries, if_neg (by omega)]
      simp [readStripe, this]
  exact ⟨C88_export_not_failed he hr, (C88_export_ends he hr).1⟩

/-- **C88** A buffer is needed: an archiver given none, with a stripe to archive, never ends and never fails. (The command gives
four.) -/
theorem C88_needs_a_buffer {ls : List Lab} {s : St} (h : Run c (St.init c st0) ls s) (h0 : c.conc = 0) {k : Nat} (hk : k < c.count)
    (hh : c.count ≤ c.headers.length) (ha : shouldArchive c k = .ok true) : s.phase = .running ∧ s.next ≤ k := by
  have key : s.phase = .running ∧ s.next ≤ k ∧ s.free = 0 ∧ s.fetching = [] ∧ s.puts = [] := by
    induction h with
    | nil => simp [St.init, h0]
    | @snoc s s' ls l hr hs ih =>
      obtain ⟨i1, i2, i3, i4, i5⟩ := ih
      cases hs with
      | skip hr hn h =>
        refine ⟨i1, ?_, i3, i4, i5⟩
        rcases Nat.lt_or_eq_of_le i2 with h' | h'
        · exact h'
        · rw [h', ha] at h; simp at h
      | panic hr hn e h =>
        obtain ⟨b, hb⟩ := should_ok hh hn
        rw [hb] at h; cases h
      | start hr hn h hf ok => omega
      | fetchDone hr id hid ok buf hb => rw [i4] at hid; cases hid
      | exec a b n d x h => rw [i5] at h; simp at h
      | putDone hr a b n d x ok h hx => rw [i5] at h; simp at h
      | finish hr hn hf hi' => omega
      | metaDone hr => rw [i1] at hr; cases hr
      | mapDone hr => rw [i1] at hr; cases hr
      | timeout hr => rw [i1] at hr; simp at hr
  exact ⟨key.1, key.2.1⟩

/-! ## Concrete cases -/

/-- The demonstration volume has all that is needed. -/
theorem demo_able : Able demoCfg where
  buffers := by simp [demoCfg]
  headers := by simp [demoCfg]
  object := by
    intro id buf _ hb
    unfold makeObject
    split
    · exact ⟨_, rfl⟩
    · have : buf.length % 512 = 0 := by simp [demoCfg] at hb; omega
      simp [demoCfg, compress, this, maybeEncrypt, maybeCrypt]
  mapping := fun m => ⟨_, rfl⟩
  metadata := ⟨_, rfl⟩

/-- C88_archive_bounded, C88_archive_goes_on, C88_archive_not_failed: archiving two of three stripes, under way. -/
example : ∃ ls s, SmoothRun demoCfg (St.init demoCfg fun _ => none) ls s ∧ Took demoCfg (St.init demoCfg fun _ => none) 2 ls s ∧ ¬ s.over ∧
    s.fetching = [0] ∧ s.phase ≠ .failed := by
  have st : Step demoCfg (St.init demoCfg fun _ => none) .tau { next := 1, free := 1, fetching := [0], store := fun _ => none } :=
    .start (c := demoCfg) (St.init demoCfg fun _ => none) rfl (by simp [demoCfg, St.init]) rfl (by simp [demoCfg, St.init]) true
  have st2 : Step demoCfg { next := 1, free := 1, fetching := [0], store := fun _ => none } .tau { next := 2, free := 1, fetching := [0], store := fun _ => none } :=
    .skip _ rfl (by simp [demoCfg]) rfl
  have r : SmoothRun demoCfg (St.init demoCfg fun _ => none) _ _ :=
    ((SmoothRun.nil _).snoc ⟨st, by simp, by simp, by simp, by simp⟩).snoc ⟨st2, by simp, by simp, by simp, by simp⟩
  refine ⟨_, _, r, ((Took.nil _).work st ?_).work st2 ?_, by simp [St.over], rfl, C88_archive_not_failed demo_able r⟩
  · rintro ⟨a, b, h, -⟩; have := congrArg St.next h; simp [St.init] at this
  · rintro ⟨a, b, h, -⟩; have := congrArg St.next h; simp at this

/-- C88_archive_reached, C88_archive_ends: from its start the demonstration volume gets archived. -/
example : ∃ ls s, SmoothRun demoCfg (St.init demoCfg fun _ => none) ls s ∧ s.phase = .done :=
  C88_archive_reached (ls := []) demo_able (.nil _)

/-- C88_export_ends, C88_export_bounded: an archive of three stripes, two of them the same object, can be read and gets exported. -/
example : (∀ i, i < demoSrc.stripes → ∃ b, readStripe toyP demoSrc demoStore i (demoSrc.ssc * 512) = .ok b) ∧
    ∃ e, EServed toyP demoSrc demoStore (Ex.init demoSrc) e ∧ e.phase = .done := by
  have t1 : tableOf demoSrc.table 0 = some (.obj (toyP.sha demoBuf)) := rfl
  have t2 : tableOf demoSrc.table 1 = some (.obj (toyP.sha demoBuf)) := rfl
  have t3 : tableOf demoSrc.table 2 = some .zero := rfl
  have ff : ∀ i, finishFetch toyP demoSrc i 512 demoBuf (toyP.sha demoBuf) = .ok demoBuf := by
    intro i
    simp [finishFetch, maybeDecrypt, demoSrc, decompress, demoBuf, zeros]
  have hS : demoSrc.ssc * 512 = 512 := rfl
  have hr : ∀ i, i < demoSrc.stripes → ∃ b, readStripe toyP demoSrc demoStore i (demoSrc.ssc * 512) = .ok b := by
    intro i hi
    have hi : i < 3 := hi
    rw [hS]
    match i, hi with
    | 0, _ => exact ⟨demoBuf, by simp only [readStripe, t1, demoStore, if_true, ff]⟩
    | 1, _ => exact ⟨demoBuf, by simp only [readStripe, t2, demoStore, if_true, ff]⟩
    | 2, _ => exact ⟨zeros 512, by simp only [readStripe, t3]⟩
  exact ⟨hr, (C88_export_ends (.nil _) hr).1⟩

/-- C88_archive_exports: the demonstration volume, archived. -/
example : ∃ ls s src, Run demoCfg (St.init demoCfg fun _ => none) ls s ∧ s.phase = .done ∧ openArchive toyP demoCfg.kek s.store = .ok src ∧
    ∃ e, EServed toyP src s.store (Ex.init src) e ∧ e.phase = .done := by
  obtain ⟨s, hr, hd, hh, hg⟩ := demo_run fun _ => none
  have hn : NoCollision demoCfg s := fun o o' h h' _ => by rw [demo_only_made hg h, demo_only_made hg h']
  obtain ⟨src, h1, -, h2⟩ := C22_restore demoCfg_ok hr hd (demo_len hh) hn
  exact ⟨_, s, src, hr, hd, h1, (C88_archive_exports demoCfg_ok hr hd (demo_len hh) hn h1 (.nil _)).2⟩

/-- C88_needs_a_buffer: the demonstration volume without buffers. -/
example : shouldArchive { demoCfg with conc := 0 } 0 = .ok true ∧ ({ demoCfg with conc := 0 } : Cfg).count ≤ 3 ∧
    Run { demoCfg with conc := 0 } (St.init { demoCfg with conc := 0 } fun _ => none) [] (St.init { demoCfg with conc := 0 } fun _ => none) :=
  ⟨rfl, Nat.le_refl _, .nil _⟩

end Verif.Archive
