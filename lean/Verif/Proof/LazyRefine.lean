import Verif.Proof.LazySim2

/-! Every step of the lazy disk is a run of the plain disk; crashes. -/

set_option maxRecDepth 8000

namespace Verif.Lazy
open Verif Verif.Metadata Verif.Disk

variable {D : Type}

/-- A request leaves one of the lists of a guest queue. -/
theorem Sim.remove {c : Cfg D} {g : Nat → D} {s s' : Sys D} {a : Disk D} {q id : Nat} (h : Sim c g s a none)
    (ht : s'.t = s.t) (hsh : s'.sh = s.sh) (hfe : s'.fe = s.fe)
    (hq : ∀ q' r, r ∈ (s'.ch q').queue → r ∈ (s.ch q').queue)
    (hfi : ∀ q' p, p ∈ (s'.ch q').finished → p ∈ (s.ch q').finished)
    (him : ∀ q' i v, (s'.ch q').img i = some v → (s.ch q').img i = some v)
    (hl : locs s' q id + 1 = locs s q id) (hlne : ∀ q' id', (q', id') ≠ (q, id) → locs s' q' id' = locs s q' id') :
    Sim c g s' a (some (q, id)) := by
  have hset : ∀ k, settled s' k ↔ settled s k := by intro k; unfold settled; rw [hsh, hfe]
  have hrdy : ∀ x, ready c s' x ↔ ready c s x := ready.of_eq hsh hfe
  have hone := h.one q id
  refine ⟨by rw [ht]; exact h.tinv, h.ainv, by rw [hsh]; exact h.nosrc, ?_, ?_, by rw [hsh]; exact h.src,
    by intro x hx hs; rw [hset] at hs; rw [hsh, ht]; exact h.stable x hx hs,
    by rw [ht]; exact h.fwrite, by rw [ht]; exact h.fflush, ?_, ?_, ?_, ?_, ?_, ?_, ?_⟩
  · intro x hx hs; rw [ht]; exact h.vol x hx ((hrdy _).mp hs)
  · intro x v hx hs hp; rw [ht] at hp; exact h.pers x v hx ((hrdy _).mp hs) hp
  · intro q' id' op hop
    rw [ht] at hop
    have := h.gop q' id' op hop
    cases op with
    | read => exact ⟨this.1, by rw [hsh]; exact this.2⟩
    | write => exact ⟨this.1, by rw [hsh]; exact this.2⟩
    | flush snap =>
      obtain ⟨sa, h1, h2⟩ := this
      exact ⟨sa, h1, fun x v hx hs hp => by rw [ht] at hp; exact h2 x v hx ((hrdy _).mp hs) hp⟩
  · intro q' r hr; exact h.queue q' r (hq q' r hr)
  · intro q' id' ok hr; exact h.fin q' id' ok (hfi q' _ hr)
  · intro q' id' off cnt hr; exact h.img q' id' off cnt (him q' id' _ hr)
  · intro q' id'
    by_cases he : (q', id') = (q, id)
    · cases he; omega
    · rw [hlne _ _ he]; exact h.one q' id'
  · intro q' id' hz
    by_cases he : (q', id') = (q, id)
    · right; rw [he]
    · rw [hlne _ _ he] at hz
      left
      exact (h.free q' id' hz).resolve_right (by simp)
  · intro q' id' he
    cases he; omega

/-- The head of a queue stops waiting. -/
theorem Sim.popQueue {c : Cfg D} {g : Nat → D} {s : Sys D} {a : Disk D} {q : Nat} {r : QReq D} {rest : List (QReq D)} (h : Sim c g s a none)
    (hq : (s.ch q).queue = r :: rest) (req : Nat → Bool) :
    Sim c g (s.setCh q fun ch => { ch with queue := rest, requested := req }) a (some (q, r.id)) := by
  have hch : ∀ q', (s.setCh q fun ch => { ch with queue := rest, requested := req }).ch q' =
      if q' = q then { s.ch q with queue := rest, requested := req } else s.ch q' := fun q' => setCh_ch s q q' _
  refine h.remove rfl rfl rfl ?_ ?_ ?_ ?_ ?_
  · intro q' r' hr
    rw [hch] at hr
    split at hr
    · rename_i he; subst he; rw [hq]; exact List.mem_cons_of_mem _ hr
    · exact hr
  · intro q' r' hr
    rw [hch] at hr
    split at hr
    · rename_i he; subst he; exact hr
    · exact hr
  · intro q' i v hr
    rw [hch] at hr
    split at hr
    · rename_i he; subst he; exact hr
    · exact hr
  · unfold locs
    rw [hch, hq]
    simp [Sys.setCh]; omega
  · intro q' id' hne
    unfold locs
    rw [hch]
    split
    · rename_i he; subst he
      have : r.id ≠ id' := by rintro rfl; exact hne rfl
      rw [hq]
      simp [Sys.setCh, this]
    · rfl

/-- The plain disk answers the exempted request. -/
theorem Sim.answer {c : Cfg D} {g : Nat → D} {s : Sys D} {a : Disk D} {q id : Nat} {ok : Bool} (h : Sim c g s a (some (q, id)))
    (hfl : ∀ snap, a.ops (q, id) = some (.flush snap) → ok = false) : Sim c g s (a.complete (q, id) ok) none := by
  refine Sim.drop (h.aChange q id (h.exf q id rfl) (Or.inr rfl) (h.ainv.complete _ _) rfl ?_ ?_) (ops_complete_same _ _ _)
  · intro x v hp
    refine ⟨hp, fun snap hs hok => ?_⟩
    rw [hfl snap hs] at hok; simp at hok
  · intro o hne; rw [ops_complete_ne _ _ hne]; exact .refl _

theorem fetchStatus_complete {sh : Shared} {ks : List Nat} (h : fetchStatus sh ks = .complete) :
    ∀ k ∈ ks, sh.isLocal k = true := by
  induction ks with
  | nil => simp
  | cons k ks ih =>
    unfold fetchStatus at h
    intro k' hk'
    cases hf : sh.fs k <;> simp [hf] at h
    all_goals
      simp only [List.mem_cons] at hk'
      rcases hk' with rfl | hk'
      · simp [Shared.isLocal, hf]
      · exact ih h k' hk'

theorem fetchStatus_single {sh : Shared} {k : Nat} (h : fetchStatus sh [k] = .pending) : sh.isLocal k = false := by
  unfold fetchStatus at h
  cases hf : sh.fs k <;> simp [hf, fetchStatus] at h
  simp [Shared.isLocal, hf]

/-- A read of the plain disk moves all its sectors at once. -/
theorem exec_all (a : Disk D) (o : Nat × Nat) (off cnt : Nat) (h : a.ops o = some (.read off cnt fun _ => none)) (n : Nat)
    (hn : n ≤ cnt) : Disk.Run a [] { a with ops := upd a.ops o (some (.read off cnt fun x =>
      if off ≤ x ∧ x < off + n then some (a.vol x) else none)) } := by
  induction n with
  | zero =>
    have : ({ a with ops := upd a.ops o (some (.read off cnt fun x =>
        if off ≤ x ∧ x < off + 0 then some (a.vol x) else none)) } : Disk D) = a := by
      have e : (fun x => if off ≤ x ∧ x < off + 0 then some (a.vol x) else none) = fun _ => none := by
        funext x
        rw [if_neg (by omega)]
      rw [e, ← h]
      have : upd a.ops o (a.ops o) = a.ops := by
        funext o'
        by_cases ho : o' = o
        · subst ho; simp
        · rw [upd_ne _ _ ho]
      rw [this]
    rw [this]
    exact .nil a
  | succ n ih =>
    have h1 := ih (by omega)
    have h2 := Disk.Step.exec (D := D) ({ a with ops := upd a.ops o (some (.read off cnt fun x =>
      if off ≤ x ∧ x < off + n then some (a.vol x) else none)) } : Disk D) o (off + n)
    rw [exec_read (by simp only [upd_same]; rfl) ⟨by omega, by omega⟩] at h2
    have h3 := h1.trans (.one h2)
    simp only [List.append_nil] at h3
    have e : ∀ f : Nat → Option D, (∀ x, f x = if off ≤ x ∧ x < off + (n + 1) then some (a.vol x) else none) →
        upd (upd a.ops o (some (.read off cnt fun x => if off ≤ x ∧ x < off + n then some (a.vol x) else none))) o
          (some (.read off cnt f)) =
        upd a.ops o (some (.read off cnt fun x => if off ≤ x ∧ x < off + (n + 1) then some (a.vol x) else none)) := by
      intro f hf
      funext o'
      by_cases ho : o' = o
      · subst ho; simp only [upd_same]; rw [show f = _ from funext hf]
      · simp only [upd_ne _ _ ho]
    rw [e] at h3
    · exact h3
    · intro x
      by_cases hx : x = off + n
      · subst hx; simp
      · rw [upd_ne _ _ hx]
        by_cases hc : off ≤ x ∧ x < off + n
        · rw [if_pos hc, if_pos (by omega)]
        · rw [if_neg hc, if_neg (by omega)]

theorem visible_append (l l' : List (Lab D)) : visible (l ++ l') = visible l ++ visible l' := by
  induction l with
  | nil => rfl
  | cons a l ih => cases a <;> simp [visible, ih]

theorem visible_enqueueReq {c : Cfg D} {s : Sys D} {q : Nat} {r : QReq D} {b : Bool} : visible (enqueueReq c s q r b).2 = [] := by
  unfold enqueueReq; split <;> rfl

theorem enqueue_sim {c : Cfg D} {g : Nat → D} {s : Sys D} {a : Disk D} {q : Nat} {r : QReq D} (h : Sim c g s a (some (q, r.id))) (b : Bool)
    (hv : c.validReq r.off r.cnt) (ho : a.ops (q, r.id) = some r.op) :
    Sim c g (enqueueReq c s q r b).1 a none := by
  unfold enqueueReq
  split
  · exact h.toQueue hv ho _ _
  · exact h.toFinished (by rw [ho]; simp)

theorem req_dom {c : Cfg D} {s : Sys D} {r : QReq D} (hv : c.validReq r.off r.cnt)
    (hs : fetchStatus s.sh (stripes c r) = .complete) (x : Nat) (hx : covers r.off r.cnt x) :
    x < c.tsec ∧ s.sh.isLocal (x / c.ss) = true := by
  refine ⟨?_, fetchStatus_complete hs _ (covers_stripe hx)⟩
  have := hv.2.1
  have := hx.2
  omega

theorem addRead_sim {c : Cfg D} {g : Nat → D} {s : Sys D} {a : Disk D} (hf : FetchInv c s) (h : Sim c g s a none) {q id off cnt : Nat} {b : Bool}
    (hv : c.validReq off cnt)
    (hg : c.image = true → (off + cnt - 1) / c.ss = off / c.ss → s.sh.isLocal (off / c.ss) = false → c.goodReq off cnt)
    (hid : s.idFree q id) :
    visible (addRead c s q id off cnt b).2 = [] ∧
    ∃ a', Disk.Run (a.issue (q, id) (.read off cnt)) [] a' ∧ Sim c g (addRead c s q id off cnt b).1 a' none := by
  have h1 := h.issue hid (.read off cnt)
  have ho : (a.issue (q, id) (.read off cnt)).ops (q, id) = some (.read off cnt fun _ => none) := by
    simp [Disk.issue, Dev.issueRead]
  unfold addRead
  simp only
  split
  · rename_i hs
    refine ⟨rfl, _, .nil _, ?_⟩
    exact Sim.toData (r := { id := id, off := off, cnt := cnt, out := none }) hf h1 ho (req_dom hv hs)
  · exact ⟨rfl, _, .nil _, h1.toFinished (by rw [ho]; simp)⟩
  · rename_i hs
    split
    · rename_i himg
      refine ⟨rfl, _, exec_all _ (q, id) off cnt ho cnt (Nat.le_refl _), ?_⟩
      simp only [Bool.and_eq_true, decide_eq_true_eq] at himg
      have hst : stripes c { id := id, off := off, cnt := cnt, out := none : QReq D } = [off / c.ss] := by
        unfold stripes
        rw [← himg.1]
        simp [firstStripe, List.range_succ]
      rw [hst] at hs
      have hloc := fetchStatus_single hs
      have hgood := hg himg.2 himg.1.symm hloc
      have h2 : Sim c g s { (a.issue (q, id) (.read off cnt)) with
          ops := upd (a.issue (q, id) (.read off cnt)).ops (q, id) (some (.read off cnt fun x =>
            if off ≤ x ∧ x < off + cnt then some ((a.issue (q, id) (.read off cnt)).vol x) else none)) } (some (q, id)) := by
        refine h1.aChange q id (h1.exf q id rfl) (Or.inr rfl) ?_ rfl (fun _ _ hp => hp) ?_
        · refine ⟨h1.ainv.vol_pers, ?_, ?_, ?_⟩
          · intro o snap hop x
            by_cases hne : o = (q, id)
            · subst hne; simp at hop
            · simp only [upd_ne _ _ hne] at hop; exact h1.ainv.vol_snap o snap hop x
          · intro x v hfl; exact h1.ainv.fly_pers x v (inflight_mono_upd (by simp) hfl)
          · intro o snap hop x v hfl
            by_cases hne : o = (q, id)
            · subst hne; simp at hop
            · simp only [upd_ne _ _ hne] at hop
              exact h1.ainv.fly_snap o snap hop x v (inflight_mono_upd (by simp) hfl)
        · intro o hne; simp only [upd_ne _ _ hne]; exact .refl _
      refine h2.toImage (off := off) (cnt := cnt) (by simp only [upd_same]; rfl) ?_
      intro x hx
      have hx' : off ≤ x ∧ x < off + cnt := hx
      simp only [if_pos hx']
      refine ⟨by simp, ?_⟩
      have hst : x / c.ss = off / c.ss := by
        have := covers_stripe (c := c) (r := { id := id, off := off, cnt := cnt, out := none : QReq D }) hx
        rw [mem_stripes, ← himg.1] at this
        simp only [firstStripe] at this
        omega
      have hlx : s.sh.isLocal (x / c.ss) = false := by rw [hst]; exact hloc
      have hsome : (c.src x).isSome = true := by
        have h3 := hgood x hx
        unfold Cfg.good at h3
        cases h4 : c.hs (x / c.ss) with
        | false => rw [(h.nosrc _).2 h4] at hlx; simp at hlx
        | true => simpa [h4] using h3
      obtain ⟨v, hvx⟩ := Option.isSome_iff_exists.mp hsome
      rw [issue_vol, h.src x (by have := hv.2.1; omega) hlx, hvx]
      rfl
    · refine ⟨visible_enqueueReq, _, .nil _, ?_⟩
      exact enqueue_sim (r := { id := id, off := off, cnt := cnt, out := none }) h1 b hv ho

theorem addWrite_sim {c : Cfg D} {g : Nat → D} {s : Sys D} {a : Disk D} (hf : FetchInv c s) (h : Sim c g s a none) {q id off cnt : Nat}
    {data : Nat → D} {b : Bool} (hv : c.validReq off cnt) (hid : s.idFree q id) :
    visible (addWrite c s q id off cnt data b).2 = [] ∧
    Sim c g (addWrite c s q id off cnt data b).1 (a.issue (q, id) (.write off cnt data)) none := by
  have h1 := h.issue hid (.write off cnt data)
  have ho : (a.issue (q, id) (.write off cnt data)).ops (q, id) = some (.write off cnt data fun _ => false) := by
    simp [Disk.issue, ops_issueWrite_same]
  unfold addWrite
  simp only
  split
  · exact ⟨rfl, h1.toFinished (by rw [ho]; simp)⟩
  · rename_i hs
    split
    · exact ⟨rfl, Sim.toData (r := { id := id, off := off, cnt := cnt, out := some data }) hf h1 ho (req_dom hv hs)⟩
    · exact ⟨visible_enqueueReq, enqueue_sim (r := { id := id, off := off, cnt := cnt, out := some data }) h1 b hv ho⟩
  · exact ⟨visible_enqueueReq, enqueue_sim (r := { id := id, off := off, cnt := cnt, out := some data }) h1 b hv ho⟩

theorem processQueue_sim {c : Cfg D} {g : Nat → D} {s s' : Sys D} {a : Disk D} (hf : FetchInv c s) (h : Sim c g s a none) {q : Nat} {b : Bool}
    {ls : List (Lab D)} (hp : processQueue c s q b = some (s', ls)) : visible ls = [] ∧ Sim c g s' a none := by
  unfold processQueue at hp
  split at hp
  · simp at hp
  · rename_i r rest hq
    obtain ⟨hv, ho⟩ := h.queue q r (by rw [hq]; simp)
    split at hp
    · simp at hp
    · simp only [Option.some.injEq, Prod.mk.injEq] at hp
      obtain ⟨rfl, rfl⟩ := hp
      exact ⟨rfl, (h.popQueue hq (s.ch q).requested).toFinished (by rw [ho]; simp)⟩
    · rename_i hs
      split at hp
      · simp at hp
      · simp only at hp
        have h1 := h.popQueue hq (fun k => (s.ch q).requested k && !(stripes c r).contains k)
        split at hp
        · simp only [Option.some.injEq, Prod.mk.injEq] at hp
          obtain ⟨rfl, rfl⟩ := hp
          refine ⟨rfl, Sim.toData ?_ h1 ho (req_dom (s := s) hv hs)⟩
          exact hf.frame rfl (fun m hm => Or.inl hm) (fun _ => rfl) (fun _ => rfl)
        · simp only [Option.some.injEq, Prod.mk.injEq] at hp
          obtain ⟨rfl, rfl⟩ := hp
          exact ⟨rfl, h1.toFinished (by rw [ho]; simp)⟩

theorem visible_handleFetch (s : Sys D) (k : Nat) : visible (handleFetch s k).2 = [] := by
  unfold handleFetch; split
  · rfl
  · split <;> rfl

theorem visible_fetchCompleted (s : Sys D) (k : Nat) (ok : Bool) : visible (fetchCompleted s k ok).2 = [] := by
  unfold fetchCompleted; simp only; split
  · rfl
  · split <;> rfl

theorem visible_startFetch {c : Cfg D} {s s' : Sys D} {ls : List (Lab D)} {b : Bool}
    (hs : startFetch c s b = some (s', ls)) : visible ls = [] := by
  unfold startFetch at hs
  split at hs
  · simp only at hs
    split at hs
    · simp only [Option.some.injEq, Prod.mk.injEq] at hs; obtain ⟨-, rfl⟩ := hs; rfl
    · simp only [Option.some.injEq, Prod.mk.injEq] at hs; obtain ⟨-, rfl⟩ := hs
      exact visible_fetchCompleted _ _ _
  · simp at hs

theorem visible_sourceDone {c : Cfg D} {s s' : Sys D} {ls : List (Lab D)} {k : Nat} {ok b : Bool} {g : Nat → D}
    (hs : sourceDone c s k ok b g = some (s', ls)) : visible ls = [] := by
  unfold sourceDone at hs
  split at hs
  · simp only at hs
    split at hs
    · simp only [Option.some.injEq, Prod.mk.injEq] at hs; obtain ⟨-, rfl⟩ := hs; rfl
    · split at hs
      · split at hs
        · simp only [Option.some.injEq, Prod.mk.injEq] at hs; obtain ⟨-, rfl⟩ := hs; rfl
        · simp only [Option.some.injEq] at hs
          rw [← visible_fetchCompleted, hs]
      · simp only [Option.some.injEq] at hs
        rw [← visible_fetchCompleted, hs]
  · simp at hs

theorem visible_targetDone (s : Sys D) (k : Nat) (ok b : Bool) : visible (targetDone s k ok b).2 = [] := by
  unfold targetDone; simp only; split
  · split
    · split
      · rfl
      · exact visible_fetchCompleted _ _ _
    · exact visible_fetchCompleted _ _ _
    · rfl
  · exact visible_fetchCompleted _ _ _

theorem metaDone_noSource {s : Sys D} {k : Nat} {ok b : Bool} (k' : Nat)
    (h : (metaDone s k ok b).sh.fs k' = .noSource) : s.sh.fs k' = .noSource := by
  unfold metaDone at h
  simp only at h
  split at h
  · exact h
  · split at h
    · split at h
      · split at h <;> exact h
      · simp only [Shared.setHeader] at h
        split at h
        · by_cases hk : k' = k
          · subst hk; simp at h
          · rwa [upd_ne _ _ hk] at h
        · exact h
    · exact h

theorem step_sim {c : Cfg D} {g : Nat → D} {mv : Nat → Bytes} (hss : 0 < c.ss) {s s' : Sys D} {a : Disk D} {act : Act D} {ls : List (Lab D)}
    (hf : FetchInv c s) (hm : MetaInv c mv s) (h : Sim c g s a none) (hst : Step c s act ls s')
    (hnew : ∀ x, x < c.tsec → c.src x = none → s'.sh.isLocal (x / c.ss) = true →
      s.sh.isLocal (x / c.ss) = true ∨ g x = s.t.vol x) :
    ∃ a', Disk.Run a (visible ls) a' ∧ Sim c g s' a' none := by
  cases hst with
  | read q id off cnt b hv hg hid =>
    obtain ⟨h1, a', h2, h3⟩ := addRead_sim (b := b) hf h hv hg hid
    refine ⟨a', ?_, h3⟩
    simp only [visible, h1]
    have hn : a.ops (q, id) = none := (h.free q id (locs_zero.mpr hid)).resolve_right (by simp)
    exact (Disk.Run.one (Disk.Step.issue a q id (.read off cnt) hn)).trans h2
  | write q id off cnt data b hv hid =>
    obtain ⟨h1, h3⟩ := addWrite_sim (b := b) (data := data) hf h hv hid
    refine ⟨_, ?_, h3⟩
    simp only [visible, h1]
    have hn : a.ops (q, id) = none := (h.free q id (locs_zero.mpr hid)).resolve_right (by simp)
    exact Disk.Run.one (Disk.Step.issue a q id (.write off cnt data) hn)
  | flush q id hid =>
    have hn : a.ops (q, id) = none := (h.free q id (locs_zero.mpr hid)).resolve_right (by simp)
    exact ⟨_, Disk.Run.one (Disk.Step.issue a q id .flush hn), sim_flush hf h hid⟩
  | processQueue q b _ _ hp =>
    obtain ⟨h1, h2⟩ := processQueue_sim hf h hp
    exact ⟨a, by rw [h1]; exact .nil a, h2⟩
  | reportFinished q id ok rest hfin =>
    obtain ⟨rfl, hne⟩ := h.fin q id ok (by rw [hfin]; simp)
    have hch : ∀ q', (s.setCh q fun ch => { ch with finished := rest }).ch q' =
        if q' = q then { s.ch q with finished := rest } else s.ch q' := fun q' => setCh_ch s q q' _
    have h1 : Sim c g (s.setCh q fun ch => { ch with finished := rest }) a (some (q, id)) := by
      refine h.remove rfl rfl rfl ?_ ?_ ?_ ?_ ?_
      · intro q' r' hr
        rw [hch] at hr
        split at hr
        · rename_i he; subst he; exact hr
        · exact hr
      · intro q' r' hr
        rw [hch] at hr
        split at hr
        · rename_i he; subst he; rw [hfin]; exact List.mem_cons_of_mem _ hr
        · exact hr
      · intro q' i v hr
        rw [hch] at hr
        split at hr
        · rename_i he; subst he; exact hr
        · exact hr
      · unfold locs
        rw [hch, hfin]
        simp [Sys.setCh]; omega
      · intro q' id' hne
        unfold locs
        rw [hch]
        split
        · rename_i he; subst he
          have : id ≠ id' := by rintro rfl; exact hne rfl
          rw [hfin]
          simp [Sys.setCh, this]
        · rfl
    refine ⟨a.complete (q, id) false, ?_, h1.answer (fun _ _ => rfl)⟩
    obtain ⟨op, hop⟩ := Option.ne_none_iff_exists'.mp hne
    have := Disk.Step.respond a q id false ⟨op, hop, by simp⟩
    have hr : a.result (q, id) false = [] := by
      unfold Dev.result; split <;> simp
    rw [hr] at this
    exact Disk.Run.one this
  | baseDone q id ok hmc =>
    obtain ⟨h1, h2, h3⟩ := sim_baseDone hf h hmc
    refine ⟨_, ?_, h3⟩
    simp only [visible]
    rw [← h2]
    exact Disk.Run.one (Disk.Step.respond a q id ok h1)
  | imageDone q id ok off cnt him =>
    obtain ⟨got, h1, h2⟩ := h.img q id off cnt him
    have hch : ∀ q', (s.setCh q fun ch => { ch with img := upd ch.img id none }).ch q' =
        if q' = q then { s.ch q with img := upd (s.ch q).img id none } else s.ch q' := fun q' => setCh_ch s q q' _
    have h3 : Sim c g (s.setCh q fun ch => { ch with img := upd ch.img id none }) a (some (q, id)) := by
      refine h.remove rfl rfl rfl ?_ ?_ ?_ ?_ ?_
      · intro q' r' hr
        rw [hch] at hr
        split at hr
        · rename_i he; subst he; exact hr
        · exact hr
      · intro q' r' hr
        rw [hch] at hr
        split at hr
        · rename_i he; subst he; exact hr
        · exact hr
      · intro q' i v hr
        rw [hch] at hr
        split at hr
        · rename_i he; subst he
          by_cases hi : i = id
          · subst hi; simp at hr
          · simpa [upd_ne _ _ hi] using hr
        · exact hr
      · unfold locs
        rw [hch]
        simp [Sys.setCh, him]
      · intro q' id' hne
        unfold locs
        rw [hch]
        split
        · rename_i he; subst he
          have : id' ≠ id := by rintro rfl; exact hne rfl
          simp [Sys.setCh, upd_ne _ _ this]
        · rfl
    refine ⟨a.complete (q, id) ok, ?_, h3.answer (by intro snap hs; rw [h1] at hs; simp at hs)⟩
    have := Disk.Step.respond a q id ok ⟨_, h1, fun _ x hx => (h2 x hx).1⟩
    have hr : a.result (q, id) ok = if ok then (List.range cnt).map fun i => c.src (off + i) else [] := by
      unfold Dev.result
      rw [h1]
      simp only
      split
      · apply List.map_congr_left
        intro i hi
        rw [List.mem_range] at hi
        exact (h2 (off + i) ⟨by omega, by omega⟩).2
      · rfl
    rw [hr] at this
    exact Disk.Run.one this
  | execData o x =>
    cases o with
    | guest q id => exact sim_exec_guest hf h q id x
    | fetch k => exact ⟨a, .nil a, sim_exec_fetch hss hf h k x⟩
  | execMeta k x => exact ⟨a, .nil a, h.frame rfl rfl (fun _ => id) (fun _ => id) (fun _ => id) hnew⟩
  | receiveFetch k ms hms =>
    refine ⟨a, by rw [visible_handleFetch]; exact .nil a, ?_⟩
    have hfr := @handleFetch_frame D { s with msgs := ms } k
    have h1 : Sim c g { s with msgs := ms } a none := h.frame rfl rfl (fun _ => id) (fun _ => id) (fun _ => id) (fun _ _ _ => .inl)
    exact h1.frame handleFetch_t hfr.ch (nosrc_of_frame hfr.loc hfr.fs) (fun k => by rw [hfr.loc]; exact id)
      (fun k' => handleFetch_settled) hnew
  | receiveWritten k ms hms => exact ⟨a, .nil a, h.frame rfl rfl (fun _ => id) (fun _ => id) (fun _ => id) hnew⟩
  | autofetch k ks ha hq hk =>
    refine ⟨a, by rw [visible_handleFetch]; exact .nil a, ?_⟩
    have hfr := @handleFetch_frame D { s with fe := { s.fe with autoq := ks } } k
    have h1 : Sim c g { s with fe := { s.fe with autoq := ks } } a none := h.frame rfl rfl (fun _ => id) (fun _ => id) (fun _ => id) (fun _ _ _ => .inl)
    exact h1.frame handleFetch_t hfr.ch (nosrc_of_frame hfr.loc hfr.fs) (fun k => by rw [hfr.loc]; exact id)
      (fun k' => handleFetch_settled) hnew
  | startFetch b _ _ hs =>
    refine ⟨a, by rw [visible_startFetch hs]; exact .nil a, ?_⟩
    obtain ⟨hfr, ht, hset⟩ := startFetch_frame hf hs
    exact h.frame ht hfr.ch (nosrc_of_frame hfr.loc hfr.fs) (fun k => by rw [hfr.loc]; exact id) hset hnew
  | sourceDone k ok b g _ _ hs =>
    exact ⟨a, by rw [visible_sourceDone hs]; exact .nil a, sim_sourceDone hss hf h hs⟩
  | targetDone k ok b hmc =>
    exact ⟨a, by rw [visible_targetDone]; exact .nil a, sim_targetDone hss hf h hmc⟩
  | takeFinished k ok rest hfin =>
    exact ⟨a, .nil a, h.frame rfl rfl (fun _ => id) (fun _ => id) (fun _ => id) hnew⟩
  | startMeta b _ hs =>
    obtain ⟨h1, h2, h3, h4, h5⟩ := startMeta_frame hs
    refine ⟨a, .nil a, h.frame h2 h3 (fun k => by rw [h5]; exact id) (fun k => by rw [h5]; exact id) (fun k => ?_) hnew⟩
    unfold settled; rw [h1, h5]; exact id
  | metaDone k ok b hmc =>
    refine ⟨a, .nil a, h.frame (by simp) (by simp) metaDone_noSource metaDone_mono ?_ hnew⟩
    rintro k' (hl | hl)
    · exact metaDone_local hm k ok b k' hl
    · rw [metaDone_fe] at hl; exact Or.inr hl
  | disconnect hd hb hc => exact ⟨a, .nil a, h.frame rfl rfl (fun _ => id) (fun _ => id) (fun _ => id) hnew⟩

/-! ### Start and power loss -/

theorem boot_sim {c : Cfg D} {g : Nat → D} {hdrs : Bytes} {tv v : Nat → D} {mv : Nat → Bytes} {b0 : Nat → Nat → D} (hb : Bootable c hdrs mv)
    (hv : ∀ x, x < c.tsec → v x = preloadWith c g hdrs tv x) : Sim c g (Sys.boot c hdrs tv mv b0) (Dev.fresh v) none := by
  have hset : ∀ k, settled (Sys.boot c hdrs tv mv b0) k → (Sys.boot c hdrs tv mv b0).sh.isLocal k = true := by
    rintro k (h | h)
    · exact h
    · simp [Sys.boot] at h
  have hpre : ∀ x, ready c (Sys.boot c hdrs tv mv b0) x → preloadWith c g hdrs tv x = tv x := by
    intro x hs
    have := hset _ hs.settled
    rw [boot_isLocal] at this
    unfold preloadWith
    simp only
    rw [if_neg]
    intro h
    revert this h
    cases flag (hdrs.getD (x / c.ss) 0) HAS_SOURCE <;> cases flag (hdrs.getD (x / c.ss) 0) FETCHED <;> simp
  have hlz : ∀ q id, locs (Sys.boot c hdrs tv mv b0) q id = 0 := by
    intro q id; simp [locs, Sys.boot, Dev.kinds, Dev.fresh]
  refine ⟨Dev.Inv.fresh tv, Dev.Inv.fresh v, ?_, ?_, ?_, ?_, ?_, ?_, ?_, ?_, ?_, ?_, ?_, ?_, ?_, by simp⟩
  · intro k
    constructor
    · intro h
      rw [hb.hs k]
      simp only [Sys.boot, Shared.load, loadFs] at h
      split at h
      · split at h <;> simp at h
      · rename_i h1; simpa using h1
    · intro h
      rw [boot_isLocal, ← hb.hs k, h]; rfl
  · intro x hx hs
    show tv x = v x
    rw [hv x hx, hpre x hs]
  · intro x w hx hs hp
    have : w = tv x := hp
    show w = v x
    rw [this, hv x hx, hpre x hs]
  · intro x hx hl
    rw [boot_isLocal] at hl
    have h1 : flag (hdrs.getD (x / c.ss) 0) HAS_SOURCE = true ∧ flag (hdrs.getD (x / c.ss) 0) FETCHED = false := by
      revert hl
      cases flag (hdrs.getD (x / c.ss) 0) HAS_SOURCE <;> cases flag (hdrs.getD (x / c.ss) 0) FETCHED <;> simp
    show v x = (c.src x).getD (g x)
    rw [hv x hx]
    unfold preloadWith
    simp only [h1.1, h1.2]
    simp
  · intro x _ hs hl
    rw [hset _ hs] at hl; simp at hl
  · intro k off cnt data done h; simp [Sys.boot, Dev.fresh] at h
  · intro k snap h; simp [Sys.boot, Dev.fresh] at h
  · intro q id op h; simp [Sys.boot, Dev.fresh] at h
  · intro q r h; simp [Sys.boot] at h
  · intro q id ok h; simp [Sys.boot] at h
  · intro q id off cnt h; simp [Sys.boot] at h
  · intro q id; rw [hlz]; omega
  · intro q id _; exact Or.inl rfl

/-- Whatever survives on the metadata device loads again and describes the same volume. -/
theorem reload {c : Cfg D} {hdrs : Bytes} {mv mv' : Nat → Bytes} {s : Sys D} (hb : Bootable c hdrs mv) (hm : MetaInv c mv s)
    (hs : s.m.survives mv') :
    ∃ md', fromBytes (devBytes c.msec mv') = .ok md' ∧ Bootable c md'.headers mv' ∧
      ∀ k, k < c.n → HdrOk c s k (md'.headers.getD k 0) := by
  have hsec := fun x => hm.pers x (mv' x) (hs x)
  obtain ⟨md, hld, hmd⟩ := hb.load
  have hlen : md.headers.length = c.n := by rw [hmd]; exact hb.len
  obtain ⟨md', h1, h2, h3, h4⟩ := fromBytes_replace hb.sectors (fun x => (hsec x).len) hld
    ((hsec 0).other (by intro k _; unfold stripeIdToSector; omega))
    (by intro k hk; exact (hsec _).valid k (by omega) rfl)
  have hh : ∀ k, k < c.n → HdrOk c s k (md'.headers.getD k 0) := by
    intro k hk
    rw [h4 k (by omega)]
    exact (hsec _).hdr k hk rfl
  refine ⟨md', h1, ⟨hb.ss, ⟨md', h1, rfl⟩, by omega, fun x => (hsec x).len, ?_, hb.srcStripes⟩, hh⟩
  intro k
  by_cases hk : k < c.n
  · exact (hh k hk).src.symm
  · have e1 : md'.headers.getD k 0 = 0 := by
      rw [List.getD_eq_getElem?_getD, List.getElem?_eq_none (by omega)]; rfl
    have e2 : hdrs.getD k 0 = 0 := by
      have := hb.len
      rw [List.getD_eq_getElem?_getD, List.getElem?_eq_none (by omega)]; rfl
    rw [e1, hb.hs k, e2]

/-- `g` agrees with the data device past the end of the image, on the stripes not yet marked as fetched
(`P`: of those stripes, the ones in question). -/
def Pins (c : Cfg D) (g : Nat → D) (s : Sys D) (P : Nat → Prop) : Prop :=
  ∀ x, x < c.tsec → c.src x = none → P (x / c.ss) → s.sh.isLocal (x / c.ss) = false → g x = s.t.vol x

theorem crash_preload {c : Cfg D} {g : Nat → D} {hdrs : Bytes} {mv mv' : Nat → Bytes} {s : Sys D} {a : Disk D} {tv : Nat → D} {md' : Meta}
    (hb : Bootable c hdrs mv) (hm : MetaInv c mv s) (h : Sim c g s a none) (hpin : Pins c g s fun k => (Shared.load md'.headers).isLocal k = true)
    (ht : s.t.survives tv) (hs : s.m.survives mv') (hld : fromBytes (devBytes c.msec mv') = .ok md') :
    ∃ v, a.survives v ∧ ∀ x, x < c.tsec → v x = preloadWith c g md'.headers tv x := by
  obtain ⟨md2, h1, hb', hh⟩ := reload hb hm hs
  rw [hld] at h1
  simp only [Except.ok.injEq] at h1
  subst h1
  have hcase : ∀ x, x < c.tsec → a.pers x (preloadWith c g md'.headers tv x) := by
    intro x hx
    by_cases hf : (flag (md'.headers.getD (x / c.ss) 0) HAS_SOURCE && !flag (md'.headers.getD (x / c.ss) 0) FETCHED) = true
    · simp only [Bool.and_eq_true, Bool.not_eq_true'] at hf
      have hk : x / c.ss < c.n := by
        refine Nat.lt_of_not_le fun hk => ?_
        have := hb'.len
        rw [List.getD_eq_getElem?_getD, List.getElem?_eq_none (by omega)] at hf
        have := hf.1
        simp [flag] at this
      have hok := hh _ hk
      have hl : s.sh.isLocal (x / c.ss) = false := by
        cases hl : s.sh.isLocal (x / c.ss) with
        | false => rfl
        | true =>
          exfalso
          simp only [Shared.isLocal, Bool.or_eq_true, decide_eq_true_eq] at hl
          rcases hl with hl | hl
          · rw [hok.fetched hl] at hf; simp at hf
          · have := (h.nosrc _).1 hl
            rw [← hok.src, hf.1] at this; simp at this
      have : preloadWith c g md'.headers tv x = a.vol x := by
        rw [h.src x hx hl]
        unfold preloadWith
        simp only [hf.1, hf.2]
        simp
      rw [this]; exact h.ainv.vol_pers x
    · have hset : settled s (x / c.ss) := by
        by_cases hk : x / c.ss < c.n
        · have hok := hh _ hk
          by_cases hfe : flag (md'.headers.getD (x / c.ss) 0) FETCHED = true
          · exact hok.settled hfe
          · left
            apply (h.nosrc _).2
            rw [← hok.src]
            revert hf hfe
            cases flag (md'.headers.getD (x / c.ss) 0) HAS_SOURCE <;> cases flag (md'.headers.getD (x / c.ss) 0) FETCHED <;> simp
        · left
          apply (h.nosrc _).2
          rw [hb'.hs, List.getD_eq_getElem?_getD, List.getElem?_eq_none (by have := hb'.len; omega)]
          rfl
      have hpre : preloadWith c g md'.headers tv x = tv x := by
        unfold preloadWith
        simp only
        rw [if_neg hf]
      rw [hpre]
      have hbl : (Shared.load md'.headers).isLocal (x / c.ss) = true := by
        have := boot_isLocal (c := c) (hdrs := md'.headers) (tv := tv) (mv := mv') (b0 := fun _ => tv) (k := x / c.ss)
        rw [show (Shared.load md'.headers).isLocal (x / c.ss) = _ from this]
        revert hf
        cases flag (md'.headers.getD (x / c.ss) 0) HAS_SOURCE <;> cases flag (md'.headers.getD (x / c.ss) 0) FETCHED <;> simp
      cases hl : s.sh.isLocal (x / c.ss) with
      | true => exact h.pers x _ hx (.inl hl) (ht x)
      | false =>
        have hst := hset.resolve_left (by rw [hl]; simp)
        by_cases hsx : c.src x = none
        · rw [h.stable x hx hset hl _ (ht x), ← hpin x hx hsx hbl hl]
          have := h.src x hx hl
          rw [hsx] at this
          rw [show g x = a.vol x from this.symm]; exact h.ainv.vol_pers x
        · exact h.pers x _ hx (.inr ⟨hsx, hst⟩) (ht x)
  classical
  refine ⟨fun x => if x < c.tsec then preloadWith c g md'.headers tv x else a.vol x, ?_, ?_⟩
  · intro x
    by_cases hx : x < c.tsec
    · simp only [if_pos hx]; exact hcase x hx
    · simp only [if_neg hx]; exact h.ainv.vol_pers x
  · intro x hx
    simp only [if_pos hx]

theorem crash_sim {c : Cfg D} {g : Nat → D} {hdrs : Bytes} {mv mv' : Nat → Bytes} {s : Sys D} {a : Disk D} {tv : Nat → D} {md' : Meta}
    (hb : Bootable c hdrs mv) (hm : MetaInv c mv s) (h : Sim c g s a none) (hpin : Pins c g s fun k => (Shared.load md'.headers).isLocal k = true)
    (ht : s.t.survives tv) (hs : s.m.survives mv') (hld : fromBytes (devBytes c.msec mv') = .ok md') (b0 : Nat → Nat → D) :
    Bootable c md'.headers mv' ∧
    ∃ v, a.survives v ∧ Sim c g (Sys.boot c md'.headers tv mv' b0) (Dev.fresh v) none := by
  obtain ⟨md2, h1, hb', -⟩ := reload hb hm hs
  rw [hld] at h1
  simp only [Except.ok.injEq] at h1
  subst h1
  obtain ⟨v, h2, h3⟩ := crash_preload hb hm h hpin ht hs hld
  exact ⟨hb', v, h2, boot_sim hb' h3⟩

/-- Everything known about a state reached from a start. -/
structure Good (c : Cfg D) (s : Sys D) : Prop where
  boot : ∃ hdrs mv, Bootable c hdrs mv ∧ MetaInv c mv s
  fetch : FetchInv c s

/-! ### Contents past the end of the image

What the plain disk holds there is decided late, when the stripe becomes local; until then every choice works. -/

/-- `g` is `h` past the end of the image on the stripes that are local by now. -/
def Agree (c : Cfg D) (s : Sys D) (h g : Nat → D) : Prop :=
  ∀ x, x < c.tsec → c.src x = none → c.hs (x / c.ss) = true → s.sh.isLocal (x / c.ss) = true → g x = h x

/-- Whatever `g` is on the stripes to come, some plain disk follows, and it satisfies `P`. -/
def Family (c : Cfg D) (s : Sys D) (P : (Nat → D) → Disk D → Prop) : Prop :=
  ∃ h, ∀ g, Agree c s h g → ∃ a, P g a ∧ Sim c g s a none

theorem Family.mono {c : Cfg D} {s : Sys D} {P P' : (Nat → D) → Disk D → Prop} (h : Family c s P) (hp : ∀ g a, P g a → P' g a) :
    Family c s P' := by
  obtain ⟨h0, h⟩ := h
  refine ⟨h0, fun g hg => ?_⟩
  obtain ⟨a, h1, h2⟩ := h g hg
  exact ⟨a, hp g a h1, h2⟩

/-- One plain disk, chosen with the present contents of the data device. -/
theorem Family.sim {c : Cfg D} {s : Sys D} {P : (Nat → D) → Disk D → Prop} (h : Family c s P) :
    ∃ g a, Pins c g s (fun _ => True) ∧ P g a ∧ Sim c g s a none := by
  obtain ⟨h0, h⟩ := h
  obtain ⟨a, h1, h2⟩ := h (fun x => if s.sh.isLocal (x / c.ss) = true then h0 x else s.t.vol x)
    (fun x _ _ _ hl => by simp only [hl, if_true])
  exact ⟨_, a, fun x _ _ _ hl => by simp only [hl]; simp, h1, h2⟩

theorem Family.step {c : Cfg D} {mv : Nat → Bytes} (hss : 0 < c.ss) {s s' : Sys D} {act : Act D} {ls : List (Lab D)}
    {P P' : (Nat → D) → Disk D → Prop} (h : Family c s P) (hf : FetchInv c s) (hm : MetaInv c mv s) (hst : Step c s act ls s')
    (hmono : ∀ k, s.sh.isLocal k = true → s'.sh.isLocal k = true)
    (hp : ∀ g a a', P g a → Disk.Run a (visible ls) a' → P' g a') : Family c s' P' := by
  obtain ⟨h0, h⟩ := h
  refine ⟨fun x => if s.sh.isLocal (x / c.ss) = true then h0 x else s.t.vol x, fun g hg => ?_⟩
  obtain ⟨a, h1, h2⟩ := h g fun x hx hs hsrc hl => by
    have := hg x hx hs hsrc (hmono _ hl)
    simpa only [hl, if_true] using this
  obtain ⟨a', h3, h4⟩ := step_sim hss hf hm h2 hst fun x hx hs hl => by
    cases hl0 : s.sh.isLocal (x / c.ss) with
    | true => exact .inl rfl
    | false =>
      right
      have hsrc : c.hs (x / c.ss) = true := by
        cases h5 : c.hs (x / c.ss) with
        | true => rfl
        | false => rw [(h2.nosrc _).2 h5] at hl0; simp at hl0
      have := hg x hx hs hsrc hl
      simpa [hl0] using this
  exact ⟨a', hp g a a' h1 h3, h4⟩

theorem Family.boot {c : Cfg D} {hdrs : Bytes} {tv : Nat → D} {mv : Nat → Bytes} {b0 : Nat → Nat → D} (hb : Bootable c hdrs mv) :
    Family c (Sys.boot c hdrs tv mv b0) fun g a => a = Dev.fresh (preloadWith c g hdrs tv) :=
  ⟨tv, fun _ _ => ⟨_, rfl, boot_sim hb fun _ _ => rfl⟩⟩

theorem Family.crash {c : Cfg D} {hdrs : Bytes} {mv mv' : Nat → Bytes} {s : Sys D} {tv : Nat → D} {md' : Meta}
    {P P' : (Nat → D) → Disk D → Prop} (hb : Bootable c hdrs mv) (hm : MetaInv c mv s) (h : Family c s P)
    (ht : s.t.survives tv) (hs : s.m.survives mv') (hld : fromBytes (devBytes c.msec mv') = .ok md') (b0 : Nat → Nat → D)
    (hp : ∀ g a v, P g a → a.survives v → P' g (Dev.fresh v)) :
    Bootable c md'.headers mv' ∧ Family c (Sys.boot c md'.headers tv mv' b0) P' := by
  obtain ⟨md2, h1, hb', hh⟩ := reload hb hm hs
  rw [hld] at h1
  simp only [Except.ok.injEq] at h1
  subst h1
  obtain ⟨h0, h⟩ := h
  refine ⟨hb', fun x => if s.sh.isLocal (x / c.ss) = true then h0 x else s.t.vol x, fun g hg => ?_⟩
  have hfl : ∀ x, s.sh.fs (x / c.ss) = .fetched → (Sys.boot c md'.headers tv mv' b0).sh.isLocal (x / c.ss) = true := by
    intro x hl
    rw [boot_isLocal]
    by_cases hk : x / c.ss < c.n
    · rw [(hh _ hk).fetched hl]; simp
    · rw [List.getD_eq_getElem?_getD, List.getElem?_eq_none (by have := hb'.len; omega)]; rfl
  -- a sim for some g exists, hence the facts on local stripes
  obtain ⟨a0, -, hsim0⟩ := h h0 fun _ _ _ _ _ => rfl
  have hgs : Agree c s h0 g := by
    intro x hx hs hsrc hl
    have hfe : s.sh.fs (x / c.ss) = .fetched := by
      simp only [Shared.isLocal, Bool.or_eq_true, decide_eq_true_eq] at hl
      rcases hl with hl | hl
      · exact hl
      · rw [(hsim0.nosrc _).1 hl] at hsrc; simp at hsrc
    have := hg x hx hs hsrc (hfl x hfe)
    simpa only [hl, if_true] using this
  obtain ⟨a, h1, h2⟩ := h g hgs
  obtain ⟨-, v, h3, h4⟩ := crash_sim hb hm h2 (fun x hx hsx hbl hl => by
    have hsrc : c.hs (x / c.ss) = true := by
      cases h5 : c.hs (x / c.ss) with
      | true => rfl
      | false => rw [(h2.nosrc _).2 h5] at hl; simp at hl
    have := hg x hx hsx hsrc hbl
    simpa [hl] using this) ht hs hld b0
  exact ⟨_, hp g a v h1 h3, h4⟩

/-- A local stripe stays local. -/
theorem step_loc {c : Cfg D} {s s' : Sys D} {a : Act D} {ls : List (Lab D)} (hf : FetchInv c s) (h : Step c s a ls s') (k : Nat)
    (hl : s.sh.isLocal k = true) : s'.sh.isLocal k = true := by
  by_cases hg : a.isGuest = true
  · rw [(guest_frame h hg).sh]; exact hl
  cases h with
  | receiveFetch k' ms hms => rw [handleFetch_frame.loc]; exact hl
  | autofetch k' ks ha hq h => rw [handleFetch_frame.loc]; exact hl
  | startFetch submitOk _ _ h => rw [(startFetch_frame hf h).1.loc]; exact hl
  | sourceDone k ok submitOk garbage _ _ h => rw [(sourceDone_frame hf h).1.loc]; exact hl
  | targetDone k ok submitOk h => rw [(targetDone_frame hf h).1.loc]; exact hl
  | startMeta submitOk _ h => rw [(startMeta_frame h).2.2.2.2]; exact hl
  | metaDone k' ok submitOk h => exact metaDone_mono k hl
  | execData | execMeta | receiveWritten | takeFinished | disconnect => exact hl
  | _ => simp [Act.isGuest] at hg

/-- A run from any good state stays good and follows the plain disks. -/
theorem Good.cont {c : Cfg D} {s0 s : Sys D} {ls : List (Lab D)} {P : (Nat → D) → Disk D → Prop} (hg : Good c s0) (hsim : Family c s0 P)
    (h : Run c s0 ls s) : Good c s ∧ Family c s fun g a => ∃ a0, P g a0 ∧ Disk.Run a0 (visible ls) a := by
  induction h with
  | nil => exact ⟨hg, hsim.mono fun g a h => ⟨a, h, .nil _⟩⟩
  | step _ hst ih =>
    obtain ⟨⟨⟨hd', mv', hb', hm⟩, hf⟩, hfam⟩ := ih
    refine ⟨⟨⟨hd', mv', hb', step_meta hf hm hst⟩, step_fetch hf hm hst⟩, hfam.step hb'.ss hf hm hst (step_loc hf hst) ?_⟩
    rintro g a a' ⟨a0, h1, h2⟩ h3
    exact ⟨a0, h1, by rw [visible_append]; exact h2.trans h3⟩
  | @crash _ la _ _ _ b0' _ ht hm' hld ih =>
    obtain ⟨⟨⟨hd', mv', hb', hm⟩, hf⟩, hfam⟩ := ih
    obtain ⟨h1, h2⟩ := hfam.crash (P' := fun g a => ∃ a0, P g a0 ∧ Disk.Run a0 (visible (la ++ [.ev .crash])) a) hb' hm ht hm' hld b0' (by
      rintro g a v ⟨a0, h1, h2⟩ h3
      refine ⟨a0, h1, ?_⟩
      rw [visible_append]
      exact h2.trans (.one (.crash a v h3)))
    exact ⟨⟨⟨_, _, h1, boot_meta h1⟩, boot_fetch h1⟩, h2⟩

theorem run_sim {c : Cfg D} {hdrs : Bytes} {tv : Nat → D} {mv : Nat → Bytes} {b0 : Nat → Nat → D} {s0 s : Sys D}
    {ls : List (Lab D)} (hb : Bootable c hdrs mv) (hs0 : s0 = Sys.boot c hdrs tv mv b0)
    (h : Run c s0 ls s) :
    Good c s ∧ Family c s fun g a => Disk.Run (Dev.fresh (preloadWith c g hdrs tv)) (visible ls) a := by
  subst hs0
  obtain ⟨h1, h2⟩ := Good.cont ⟨⟨hdrs, mv, hb, boot_meta hb⟩, boot_fetch hb⟩ (Family.boot hb) h
  refine ⟨h1, h2.mono ?_⟩
  rintro g a ⟨_, rfl, h3⟩
  exact h3

/-- Where the image has data, or no image data are to be fetched, that is the one content that volume has. -/
theorem preloadWith_good {c : Cfg D} {hdrs : Bytes} {tv : Nat → D} {mv : Nat → Bytes} (hb : Bootable c hdrs mv) (g : Nat → D) {x : Nat} (hg : c.good x = true) :
    preloadWith c g hdrs tv x = preload c hdrs tv x := by
  unfold preload preloadWith
  simp only
  split
  · rename_i h
    simp only [Bool.and_eq_true] at h
    have h1 := hb.hs (x / c.ss)
    rw [h.1] at h1
    unfold Cfg.good at hg
    rw [h1] at hg
    obtain ⟨v, hv⟩ := Option.isSome_iff_exists.mp (by simpa using hg)
    rw [hv]; rfl
  · rfl

end Verif.Lazy
