import Verif.Props.Archive

/-! The archiver finishes when nothing fails: a run for any contents of the stripes. -/

set_option maxRecDepth 8000

namespace Verif.Archive
open Verif Verif.Crypt Verif.Disk

/-- What the archiver records for a stripe with contents `buf`. -/
def specOf (c : Cfg) (id : Nat) (buf : Bytes) : Option Spec :=
  match makeObject c id buf with
  | .ok (some o) => some (.obj (c.P.sha o))
  | .ok none => some .zero
  | .error _ => none

/-- Between two stripes, nothing outstanding. -/
structure Idle (c : Cfg) (bufs : Nat → Bytes) (ls : List Lab) (s : St) : Prop where
  phase : s.phase = .running
  free : 0 < s.free
  fetching : s.fetching = []
  inflight : s.inflight = 0
  puts : s.puts = []
  labs : ∀ id ok buf, Lab.fetched id ok buf ∈ ls → ok = true ∧ buf = bufs id ∧ shouldArchive c id = .ok true
  hashes : ∀ id, s.hashes id = if id < s.next ∧ shouldArchive c id = .ok true then specOf c id (bufs id) else none

theorem idle_step {c : Cfg} {bufs : Nat → Bytes} (hlen : ∀ id, (bufs id).length = c.ssc * 512)
    (hmk : ∀ id, shouldArchive c id = .ok true → ∃ o, makeObject c id (bufs id) = .ok o) {s0 s : St} {ls : List Lab}
    (hr : Run c s0 ls s) (hi : Idle c bufs ls s) (hn : s.next < c.count) (hc : s.next < c.headers.length) :
    ∃ ls' s', Run c s0 ls' s' ∧ Idle c bufs ls' s' ∧ s'.next = s.next + 1 := by
  obtain ⟨b, hb⟩ : ∃ b, shouldArchive c s.next = .ok b := by
    unfold shouldArchive; rw [List.getElem?_eq_getElem hc]; exact ⟨_, rfl⟩
  cases b with
  | false =>
    refine ⟨_, _, hr.snoc (.skip _ hi.phase hn hb), ⟨hi.phase, hi.free, hi.fetching, hi.inflight, hi.puts, ?_, ?_⟩, rfl⟩
    · intro id ok buf h
      simp only [List.mem_append, List.mem_singleton, reduceCtorEq, or_false] at h
      exact hi.labs id ok buf h
    · intro id
      show s.hashes id = _
      rw [hi.hashes]
      by_cases he : id = s.next
      · subst he; simp [hb]
      · have : id < s.next ↔ id < s.next + 1 := by omega
        simp only [this]
  | true =>
    obtain ⟨o, ho⟩ := hmk _ hb
    have r1 := hr.snoc (.start _ hi.phase hn hb hi.free true)
    simp only [if_true, hi.fetching] at r1
    have r2 := r1.snoc (.fetchDone _ (by exact hi.phase) s.next (by simp) true (bufs s.next) (hlen _))
    simp only [if_true, upload, ho, List.mem_singleton, not_true_eq_false, if_false] at r2
    have hf : ([s.next].filter (· ≠ s.next)) = [] := by simp
    have hlab : ∀ id ok buf, Lab.fetched id ok buf ∈ ls ++ [.tau] ++ [.fetched s.next true (bufs s.next)] →
        ok = true ∧ buf = bufs id ∧ shouldArchive c id = .ok true := by
      intro id ok buf h
      simp only [List.mem_append, List.mem_singleton, reduceCtorEq, or_false, Lab.fetched.injEq] at h
      rcases h with h | ⟨rfl, rfl, rfl⟩
      · exact hi.labs id ok buf h
      · exact ⟨rfl, rfl, hb⟩
    have hh : ∀ id, upd s.hashes s.next (specOf c s.next (bufs s.next)) id =
        if id < s.next + 1 ∧ shouldArchive c id = .ok true then specOf c id (bufs id) else none := by
      intro id
      by_cases he : id = s.next
      · subst he; simp [hb]
      · have : id < s.next ↔ id < s.next + 1 := by omega
        rw [upd_ne _ _ he, hi.hashes]; simp only [this]
    cases o with
    | none =>
      have hsp : specOf c s.next (bufs s.next) = some .zero := by unfold specOf; rw [ho]
      rw [hsp] at hh
      refine ⟨_, _, r2, ⟨hi.phase, by show 0 < s.free - 1 + 1; omega, hf, hi.inflight, hi.puts, hlab, hh⟩, rfl⟩
    | some o =>
      have hsp : specOf c s.next (bufs s.next) = some (.obj (c.P.sha o)) := by unfold specOf; rw [ho]
      rw [hsp] at hh
      simp only at r2
      by_cases hk : objectKey (c.P.sha o) ∈ s.seen
      · rw [if_pos hk] at r2
        exact ⟨_, _, r2, ⟨hi.phase, by show 0 < s.free - 1 + 1; omega, hf, hi.inflight, hi.puts, hlab, hh⟩, rfl⟩
      · rw [if_neg hk] at r2
        simp only [St.startPut, hi.puts, List.nil_append] at r2
        have r3 := r2.snoc (.exec _ [] [] _ _ _ rfl)
        have r4 := r3.snoc (.putDone _ (by exact hi.phase) [] [] _ _ true true rfl (fun _ => rfl))
        simp only [List.nil_append, hi.inflight, Nat.zero_add, Nat.zero_lt_one, decide_true, Bool.and_self, if_true] at r4
        refine ⟨_, _, r4, ⟨hi.phase, by show 0 < s.free - 1 + 1; omega, hf, rfl, rfl, ?_, hh⟩, rfl⟩
        intro id ok buf h
        rw [List.mem_append, List.mem_append] at h
        rcases h with (h | h) | h
        · exact hlab id ok buf h
        · simp at h
        · simp at h

theorem idle_all {c : Cfg} {bufs : Nat → Bytes} (hlen : ∀ id, (bufs id).length = c.ssc * 512) (hcount : c.count ≤ c.headers.length)
    (hconc : 0 < c.conc) (hmk : ∀ id, shouldArchive c id = .ok true → ∃ o, makeObject c id (bufs id) = .ok o)
    (st0 : Name → Option Bytes) : ∀ n, n ≤ c.count → ∃ ls s, Run c (St.init c st0) ls s ∧ Idle c bufs ls s ∧ s.next = n := by
  intro n
  induction n with
  | zero =>
    intro _
    exact ⟨[], _, .nil _, ⟨rfl, hconc, rfl, rfl, rfl, by simp, by simp [St.init]⟩, rfl⟩
  | succ n ih =>
    intro hn
    obtain ⟨ls, s, h1, h2, h3⟩ := ih (by omega)
    obtain ⟨ls', s', g1, g2, g3⟩ := idle_step hlen hmk h1 h2 (by omega) (by omega)
    exact ⟨ls', s', g1, g2, by omega⟩

/-- **C22**, that archives come to exist: when every stripe to be archived can be fetched and encoded and nothing fails, there is a run of
the archiver that finishes, for any contents of the stripes. -/
theorem C22_can_finish {c : Cfg} {bufs : Nat → Bytes} (hlen : ∀ id, (bufs id).length = c.ssc * 512) (hcount : c.count ≤ c.headers.length)
    (hconc : 0 < c.conc) (hmk : ∀ id, shouldArchive c id = .ok true → ∃ o, makeObject c id (bufs id) = .ok o)
    (hser : ∀ m, ∃ b, serializeMapping c.P m c.hkey c.keys = .ok b) (hmeta : ∃ m, archiveMeta c = .ok m) (st0 : Name → Option Bytes) :
    ∃ ls s, Run c (St.init c st0) ls s ∧ s.phase = .done ∧
      (∀ id ok buf, Lab.fetched id ok buf ∈ ls → ok = true ∧ buf = bufs id) ∧
      ∀ id, s.hashes id = if id < c.count ∧ shouldArchive c id = .ok true then specOf c id (bufs id) else none := by
  obtain ⟨ls, s, h1, h2, h3⟩ := idle_all hlen hcount hconc hmk st0 _ (Nat.le_refl _)
  obtain ⟨b, hb⟩ := hser (entries c.count s.hashes)
  obtain ⟨m, hm⟩ := hmeta
  have t8 := h1.snoc (.finish _ h2.phase h3 h2.fetching h2.inflight)
  simp only [finish, hb, hm, St.startPut, h2.puts, List.nil_append] at t8
  have t9 := t8.snoc (.exec _ [] [] _ _ _ rfl)
  have t10 := t9.snoc (.metaDone _ rfl [] [] _ true true rfl (fun _ => rfl))
  simp only [if_true, publish, hb, St.startPut, List.nil_append] at t10
  have t11 := t10.snoc (.exec _ [] [] _ _ _ rfl)
  have t12 := t11.snoc (.mapDone _ rfl [] [] _ true true rfl (fun _ => rfl))
  refine ⟨_, _, t12, rfl, ?_, by rw [← h3]; exact h2.hashes⟩
  intro id ok buf h
  simp only [List.append_assoc, List.mem_append] at h
  rcases h with h | h
  · exact ⟨(h2.labs id ok buf h).1, (h2.labs id ok buf h).2.1⟩
  · simp at h

end Verif.Archive
