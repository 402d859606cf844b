import Verif.Props.Front
import Verif.Props.StackDemo

/-! # C67: a guest of an encrypted volume at work -/

set_option maxRecDepth 8000

namespace Verif.Vhost
open Verif Verif.Metadata Verif.Disk
open Verif.Restore (seven plainCfg)

/-- A thread with one free slot of one sector takes a chain that asks for a disk request. -/
theorem one_pop {dev : Bytes} {v : Vq} {s : Slot} {head : Nat} {ds : List Desc} {r : Req Bytes} (hs : v.slots = [s]) (hu : s.used = false)
    (hl : s.buf.length = 512) (hw : wanted v.mem ds = some r) (ht : total (dataOf ds) ≤ 512) :
    ∃ v' dq s', processChain dev v head ds = .ok (v', [.dev 0 dq]) ∧ v'.slots = [s'] ∧ s'.buf.length = 512 := by
  unfold wanted at hw
  split at hw
  · cases hw
  rename_i hd hhd
  split at hw
  · cases hw
  rename_i hwf
  obtain ⟨r0, hA⟩ := wellFormed_iff.1 (by simpa using hwf)
  have hp := (C37_parse_partial _ _ _).2 hA
  obtain ⟨⟨hd', a1, a2, a3, a4, a5, a6⟩, b, -, -⟩ := hA
  rw [hhd, Option.some.injEq] at a1
  subst a1
  have hlen : requestLen r0 = total (dataOf ds) := by rw [requestLen_eq, b, Nat.mod_eq_of_lt (by omega)]
  have hslot : ∀ len, len ≤ 512 → findSlot [s] len = some 0 := by
    intro len h
    simp [findSlot, hu, hl, h]
  unfold processChain
  simp only [hp]
  by_cases e0 : headerType v.mem hd.addr = 0
  · rw [if_pos e0] at hw
    split at hw
    · rename_i hm
      have ty : r0.ty = .in := by rw [a4, e0]; rfl
      rw [ty]
      simp only [processRead, hlen, hm, ne_eq, not_true_eq_false, if_false, getSlot, hs, hslot _ ht]
      exact ⟨_, _, _, rfl, rfl, hl⟩
    · cases hw
  rw [if_neg e0] at hw
  by_cases e1 : headerType v.mem hd.addr = 1
  · rw [if_pos e1] at hw
    split at hw
    · rename_i hm
      have ty : r0.ty = .out := by rw [a4, e1]; rfl
      rw [ty]
      simp only [processWrite, hlen, hm.1, ne_eq, not_true_eq_false, if_false, getSlot, hs, hslot _ ht]
      simp only [List.getElem?_cons_zero, Option.map_some, Option.getD_some, List.set_cons_zero]
      cases hg : gather v.mem r0.data 0 s.buf false with
      | panic => exact absurd hg (gather_total (by rw [b]; omega))
      | ok p =>
        obtain ⟨buf, fl⟩ := p
        obtain ⟨g1, g2, g3, -⟩ := gather_ok hg (Nat.zero_le _)
        have hf : fl = false := g3.2 ⟨rfl, by rw [b]; simpa using hm.2⟩
        subst hf
        exact ⟨_, _, _, rfl, rfl, by simp only []; omega⟩
    · cases hw
  rw [if_neg e1] at hw
  by_cases e4 : headerType v.mem hd.addr = 4
  · have ty : r0.ty = .flush := by rw [a4, e4]; rfl
    rw [ty]
    simp only [processFlush, getSlot, hs, hslot 0 (by omega)]
    exact ⟨_, _, _, rfl, rfl, hl⟩
  · rw [if_neg e4] at hw; cases hw

theorem one_poll {v : Vq} {s : Slot} {buf : Bytes} (hs : v.slots = [s]) (hl : s.buf.length = 512) (hb : buf.length ≤ 512) (ht : total s.data ≤ 512) :
    ∃ v' s' es, pollOne (devDone v 0 buf) 0 true = .ok (v', es) ∧ v'.slots = [s'] ∧ s'.used = false ∧ s'.buf.length = 512 := by
  have hc : ∀ (w : Vq) (s' : Slot) (a b c : Nat) (st : UInt8), w.slots = [s'] → (complete w a b c st).1.slots = [s'] := by
    intro w s' a b c st h
    unfold complete
    simp only []
    split <;> exact h
  have hp : ∀ (w : Vq) (s' : Slot), w.slots = [s'] → (putSlot w 0).slots = [{ s' with used := false }] := by
    intro w s' h
    simp only [putSlot, h, List.modify_cons, if_true]
  have hlen : (buf ++ s.buf.drop buf.length).length = 512 := by simp; omega
  have hd : (devDone v 0 buf).slots = [{ s with buf := buf ++ s.buf.drop buf.length }] := by
    simp only [devDone, hs, List.modify_cons, if_true]
  unfold pollOne
  simp only [hd, List.getElem?_cons_zero]
  split
  · cases hsc : scatter (devDone v 0 buf).mem s.data 0 (buf ++ s.buf.drop buf.length) with
    | panic => exact absurd hsc (scatter_total (by omega))
    | ok p =>
      obtain ⟨m, b⟩ := p
      exact ⟨_, _, _, rfl, hp _ _ (hc _ _ _ _ _ _ rfl), rfl, hlen⟩
  · exact ⟨_, _, _, rfl, hp _ _ (hc _ _ _ _ _ _ hd), rfl, hlen⟩

/-- A request from its chain to its answer, on a queue with one free slot. -/
theorem round {dev : Bytes} {n bs : Nat} {mem : GMem} {ls : List FLab} {es : List (Ev Bytes)} {f : Front} (h : FRun dev n bs mem ls es f)
    {q : Nat} (hfq : f.first ≤ q) {s : Slot} (hs : (f.qs q).slots = [s]) (hu : s.used = false) (hl : s.buf.length = 512) (hb : f.box (q, 0) = none)
    {ds : List Desc} {r : Req Bytes} (hw : wanted f.mem ds = some r) (ht : total (dataOf ds) ≤ 512) (hlen : ∀ d ∈ ds, d.len < 2 ^ 32)
    (hm : ∀ a ∈ places (dataOf ds), f.mem.ok a = true) {data : List (Option Bytes)}
    (hd : ∀ b ∈ data, ∃ s : Bytes, b = some s ∧ s.length = 512)
    (hc : match r with | .read _ cnt => data.length = cnt | _ => data = []) :
    ∃ f' s' m, FRun dev n bs mem
        (ls ++ [.popped q (f.qs q).popped f.mem ds, .returned q (f.qs q).popped f.mem ds (some S_OK) m])
        (es ++ [.issue q 0 r, .resp q 0 true data]) f' ∧
      (f'.qs q).slots = [s'] ∧ s'.used = false ∧ s'.buf.length = 512 ∧ f'.box (q, 0) = none ∧ f'.mem.ok = f.mem.ok ∧
      (f'.qs q).popped = (f.qs q).popped + 1 ∧ f'.first = f.first ∧ (∀ q', q' ≠ q → f'.qs q' = f.qs q') ∧ (∀ p, p ≠ (q, 0) → f'.box p = f.box p) ∧
      (∀ off cnt, r = .read off cnt → Sane ds → found m ds r true = data) ∧
      ∀ i, (f.qs q).inflight i = none → (f'.qs q).inflight i = none := by
  obtain ⟨v1, dq, s1, p1, p2, p3⟩ := one_pop (dev := dev) (v := f.at q) (head := 0) hs hu hl hw ht
  have hsm : Small (f.at q) := by
    intro s' hs'
    have : s' ∈ [s] := hs ▸ hs'
    rw [List.mem_singleton.1 this, hl]; decide
  obtain ⟨c1, c2, c3, c4⟩ := chain_spec p1 hsm
  generalize hes : [VEv.dev 0 dq] = es1 at c4
  cases c4 with
  | bad => cases hes
  | done => cases hes
  | hold r0 id dq' s' hp hn hh hi hf hq hmm hsg =>
    simp only [List.cons.injEq, VEv.dev.injEq, and_true] at hes
    obtain ⟨rfl, rfl⟩ := hes
    have hw' := wanted_issued hp hq (show total (dataOf ds) < 2 ^ 32 by omega)
    have hr : r = dq.toReq := by
      have : wanted f.mem ds = some dq.toReq := hw'
      rw [hw, Option.some.injEq] at this; exact this
    have hh1 : held v1 0 = some s' := by rw [hh, upd_same]
    obtain ⟨q1, q2⟩ := held_some.1 hh1
    rw [p2, List.getElem?_cons_zero, Option.some.injEq] at q1
    subst q1
    have hA := (C37_parse_partial _ _ _).1 hp
    have hdat : s1.data = dataOf ds := hf.data.trans hA.data
    have h1 := h.step (.pop f q 0 ds v1 _ hfq hlen p1)
    generalize hf1 : ({ f with mem := v1.mem, qs := upd f.qs q v1, chains := upd f.chains (q, (f.qs q).popped) (f.mem, ds) } : Front) = f1 at h1
    have e1 : f1.qs q = v1 := by rw [← hf1]; exact upd_same _ _ _
    have e2 : f1.box = f.box := by rw [← hf1]
    have e3 : f1.mem = v1.mem := by rw [← hf1]
    have e4 : f1.chains (q, (f.qs q).popped) = (f.mem, ds) := by rw [← hf1]; exact upd_same _ _ _
    have e6 : f1.first ≤ q := by rw [← hf1]; exact hfq
    have e7 : ∀ q', q' ≠ q → f1.qs q' = f.qs q' := fun q' hne => by rw [← hf1]; exact upd_ne _ _ hne
    have e8 : f1.first = f.first := by rw [← hf1]
    have e5 : f1.at q = v1 := by rw [Front.at, e1, e3]
    have h2 := h1.step (.deliver f1 q 0 true data e6 (by rw [e2]; exact hb))
    obtain ⟨buf, hbuf⟩ : ∃ buf : Bytes, buf = data.flatMap fun b => b.getD [] := ⟨_, rfl⟩
    have hflat : buf.length = data.length * 512 := by
      rw [hbuf]
      clear hbuf hc h2
      induction data with
      | nil => rfl
      | cons b data ih =>
        obtain ⟨s, rfl, e⟩ := hd b (.head _)
        rw [List.flatMap_cons, List.length_append, ih fun b hb => hd b (.tail _ hb), List.length_cons, Option.getD_some, e]; omega
    have hfill : dq.filled buf := by
      rw [hr] at hc
      cases dq with
      | read sec cnt => show buf.length = cnt * 512; rw [hflat, show data.length = cnt from hc]
      | write sec cnt d => show buf = []; rw [hbuf, show data = [] from hc]; rfl
      | flush => show buf = []; rw [hbuf, show data = [] from hc]; rfl
    have hb512 : buf.length ≤ 512 := by
      cases dq with
      | read sec cnt =>
        obtain ⟨-, -, q3⟩ := hq
        have : buf.length = cnt * 512 := hfill
        rw [this, q3, hA.data, Nat.mod_eq_of_lt (show total (dataOf ds) < 2 ^ 32 by omega)]; exact ht
      | write sec cnt d => rw [show buf = [] from hfill]; simp
      | flush => rw [show buf = [] from hfill]; simp
    obtain ⟨v2, s2, es2, g1, g2, g3, g4⟩ := one_poll p2 p3 hb512 (by rw [hdat]; exact ht)
    have hst : v1.mem.ok s1.status = true := by
      rw [hmm, hf.status]; exact parse_status hp
    obtain ⟨st, hP⟩ := poll_spec c3 hh1 hst (by omega) g1
    have hsok : st = S_OK := by
      rw [hP.status, if_pos ⟨rfl, fun _ a ha => by rw [hmm]; rw [hdat] at ha; exact hm a ha⟩]
    have h3 := h2.step (.handle { f1 with box := upd f1.box (q, 0) (some (true, data)) } q 0 true data buf v2 es2 e6 (upd_same f1.box (q, 0) _)
      (fun r hr' => by
        have : v1.inflight 0 = some r := by rw [← e1]; exact hr'
        rw [hi, upd_same, Option.some.injEq] at this
        subst this; exact hfill)
      (fun _ => ⟨hd, hbuf⟩) (by
        have : ({ f1 with box := upd f1.box (q, 0) (some (true, data)) } : Front).at q = v1 := e5
        rw [this]; exact g1))
    have hu1 : s1.uid = (f.qs q).popped := hf.uid
    have hret : returns { f1 with box := upd f1.box (q, 0) (some (true, data)) } q v2.mem es2 =
        [.returned q (f.qs q).popped f.mem ds (some S_OK) v2.mem] := by
      rw [hP.ev, hsok, hu1]
      simp only [returns, List.filterMap_cons, List.filterMap_nil, e4]
    rw [hret] at h3
    have hcalls : calls q [.dev 0 dq] = [.issue q 0 r] := by rw [hr]; rfl
    rw [hcalls] at h3
    have h4 : FRun dev n bs mem
        (ls ++ [.popped q (f.qs q).popped f.mem ds, .returned q (f.qs q).popped f.mem ds (some S_OK) v2.mem])
        (es ++ [.issue q 0 r, .resp q 0 true data])
        { f1 with mem := v2.mem, qs := upd f1.qs q v2, box := upd (upd f1.box (q, 0) (some (true, data))) (q, 0) none } := by
      simpa [returns] using h3
    have hv2 : upd f1.qs q v2 q = v2 := upd_same _ _ _
    refine ⟨_, s2, v2.mem, h4, (by simp only [hv2]; exact g2), g3, g4, upd_same (upd f1.box (q, 0) (some (true, data))) (q, 0) _, hP.ok.trans c2, ?_, e8, fun q' hne => (upd_ne _ _ hne).trans (e7 q' hne),
      fun p hne => (upd_ne _ _ hne).trans ((upd_ne _ _ hne).trans (congrFun e2 p)), fun off cnt hrd hsn => ?_, fun i hin => ?_⟩
    · simp only [hv2]
      rw [hP.popped, c1]; rfl
    · subst hrd
      cases dq with
      | write => cases hr
      | flush => cases hr
      | read sec cnt' =>
        obtain ⟨q1, -, q3⟩ := hq
        obtain ⟨g5, g6⟩ := hP.inside hsok (hf.ty.trans q1)
        rw [hdat] at g5 g6
        obtain ⟨sd, w1, -, -, -, w5⟩ := hA.status
        have hsd : s1.status = sd.addr := hf.status.trans w5
        have hbl : buf.length = (places (dataOf ds)).length := by
          have : buf.length = cnt' * 512 := hfill
          rw [places_length, this, q3, hA.data, Nat.mod_eq_of_lt (show total (dataOf ds) < 2 ^ 32 by omega)]
        rw [show cnt = data.length from hc.symm]
        refine found_read hd hbuf hbl (fun i a hia => ?_) off
        have hil : i < buf.length := by
          have := (List.getElem?_eq_some_iff.1 hia).1
          omega
        rw [g6 hsn.1 i a hia (fun e => hsn.2.1 sd w1 (by rw [← hsd, ← e]; exact List.mem_of_getElem? hia))]
        simp [List.getD_eq_getElem?_getD, List.getElem?_append_left hil]
    · simp only [hv2]
      rw [hP.inflight, hi]
      simp only [upd]
      split
      · rfl
      · exact hin

/-- The first half of that: the request is in the channel. -/
theorem half_round {dev : Bytes} {n bs : Nat} {mem : GMem} {ls : List FLab} {es : List (Ev Bytes)} {f : Front} (h : FRun dev n bs mem ls es f)
    {q : Nat} (hfq : f.first ≤ q) {s : Slot} (hs : (f.qs q).slots = [s]) (hu : s.used = false) (hl : s.buf.length = 512)
    {ds : List Desc} {r : Req Bytes} (hw : wanted f.mem ds = some r) (ht : total (dataOf ds) ≤ 512) (hlen : ∀ d ∈ ds, d.len < 2 ^ 32) :
    ∃ f', FRun dev n bs mem (ls ++ [.popped q (f.qs q).popped f.mem ds]) (es ++ [.issue q 0 r]) f' ∧
      f'.first = f.first ∧ (∀ q', q' ≠ q → f'.qs q' = f.qs q') ∧ f'.box = f.box := by
  obtain ⟨v1, dq, s1, p1, p2, p3⟩ := one_pop (dev := dev) (v := f.at q) (head := 0) hs hu hl hw ht
  have hsm : Small (f.at q) := by
    intro s' hs'
    have : s' ∈ [s] := hs ▸ hs'
    rw [List.mem_singleton.1 this, hl]; decide
  obtain ⟨c1, c2, c3, c4⟩ := chain_spec p1 hsm
  generalize hes : [VEv.dev 0 dq] = es1 at c4
  cases c4 with
  | bad => cases hes
  | done => cases hes
  | hold r0 id dq' s' hp hn hh hi hf hq hmm hsg =>
    simp only [List.cons.injEq, VEv.dev.injEq, and_true] at hes
    obtain ⟨rfl, rfl⟩ := hes
    have hw' := wanted_issued hp hq (show total (dataOf ds) < 2 ^ 32 by omega)
    have hr : r = dq.toReq := by
      have : wanted f.mem ds = some dq.toReq := hw'
      rw [hw, Option.some.injEq] at this; exact this
    have h1 := h.step (.pop f q 0 ds v1 _ hfq hlen p1)
    have hcalls : calls q [.dev 0 dq] = [.issue q 0 r] := by rw [hr]; rfl
    rw [hcalls] at h1
    have h2 : FRun dev n bs mem (ls ++ [.popped q (f.qs q).popped f.mem ds]) (es ++ [.issue q 0 r])
        { f with mem := v1.mem, qs := upd f.qs q v1, chains := upd f.chains (q, (f.qs q).popped) (f.mem, ds) } := by simpa [returns] using h1
    exact ⟨_, h2, rfl, fun q' hne => upd_ne f.qs v1 hne, rfl⟩

/-- 4096 mapped bytes: a request header of the given type and sector 0 at address 0, a given byte at address 1000, otherwise zeros. -/
def frontMem (ty fill : UInt8) : GMem := ⟨fun a => if a = 0 then ty else if a = 1000 then fill else 0, fun a => a < 4096⟩

theorem front_header (ty fill : UInt8) : headerType (frontMem ty fill) 0 = ty.toNat ∧ headerSector (frontMem ty fill) 0 = 0 := by
  simp [headerType, headerSector, span, frontMem, List.range, List.range.loop, fromLe]

theorem front_wellFormed (ty fill : UInt8) (data : List (Nat × Nat × Bool)) (h : ty.toNat = 0 → ∀ p ∈ data, p.2.2 = true) :
    wellFormed (frontMem ty fill) (demoChain data) = true := by
  obtain ⟨h1, h2⟩ := front_header ty fill
  obtain ⟨d1, d2, d3⟩ := demo_data data
  refine wellFormed_iff.2 ⟨⟨RType.ofCode ty.toNat, data.map (fun p => (p.1, p.2.1)), 0, 4000⟩,
    ⟨⟨⟨0, 16, false, true⟩, rfl, rfl, ?_, by simp only [h1], by simp only [h2], by simp only [h2]; exact fun _ => trivial⟩, d2.symm, ?_,
      ⟨4000, 1, true, false⟩, d3, rfl, by decide, rfl, rfl⟩⟩
  · intro x hx
    rw [mem_span] at hx
    simp only [frontMem, decide_eq_true_eq] at hx ⊢; omega
  · intro ht d hd
    rw [d1, List.mem_map] at hd
    obtain ⟨p, hp, rfl⟩ := hd
    exact h (ofCode_in ht) p hp

theorem front_head (data : List (Nat × Nat × Bool)) : (demoChain data).head? = some ⟨0, 16, false, true⟩ := rfl

theorem front_read (fill : UInt8) : wanted (frontMem 0 fill) (demoChain [(1000, 512, true)]) = some (.read 0 1) := by
  obtain ⟨h1, h2⟩ := front_header 0 fill
  unfold wanted
  rw [front_head]
  have := front_wellFormed 0 fill [(1000, 512, true)] (by simp)
  have d := (demo_data [(1000, 512, true)]).2.1
  simp [this, h1, h2, d, total]

theorem front_flush (fill : UInt8) : wanted (frontMem 4 fill) (demoChain []) = some .flush := by
  obtain ⟨h1, h2⟩ := front_header 4 fill
  unfold wanted
  rw [front_head]
  have := front_wellFormed 4 fill [] (by simp)
  simp [this, h1]

theorem front_write (fill : UInt8) : wanted (frontMem 1 fill) (demoChain [(1000, 512, false)]) =
    some (.write 0 1 fun x => sectorOf ((span 1000 512).map (frontMem 1 fill).bytes) (x - 0)) := by
  obtain ⟨h1, h2⟩ := front_header 1 fill
  unfold wanted
  rw [front_head]
  have := front_wellFormed 1 fill [(1000, 512, false)] (by simp)
  have d := (demo_data [(1000, 512, false)]).2.1
  have hall : (span 1000 512).all (frontMem 1 fill).ok = true := by
    rw [List.all_eq_true]
    intro x hx
    rw [mem_span] at hx
    simp only [frontMem, decide_eq_true_eq]; omega
  simp [this, h1, h2, d, total, places, hall]

theorem front_sane (data : List (Nat × Nat × Bool)) (h : data = [(1000, 512, true)] ∨ data = [(1000, 512, false)] ∨ data = []) :
    Sane (demoChain data) := by
  obtain ⟨-, d2, d3⟩ := demo_data data
  unfold Sane
  rw [d2, d3]
  rcases h with rfl | rfl | rfl
  · refine ⟨by simpa [places] using span_nodup 1000 512, ?_, by simp [total]⟩
    rintro s ⟨⟩
    simp [places, mem_span]
  · refine ⟨by simpa [places] using span_nodup 1000 512, ?_, by simp [total]⟩
    rintro s ⟨⟩
    simp [places, mem_span]
  · exact ⟨by simp [places], by simp [places], by simp [total]⟩

theorem front_places (b : Bool) : places (dataOf (demoChain [(1000, 512, b)])) = span 1000 512 := by
  rw [(demo_data _).2.1]; simp [places]

theorem front_mapped (ty fill : UInt8) : ∀ a ∈ span 1000 512, (frontMem ty fill).ok a = true := by
  intro a ha
  rw [mem_span] at ha
  simp only [frontMem, decide_eq_true_eq]; omega

theorem front_total (data : List (Nat × Nat × Bool)) (h : data = [(1000, 512, true)] ∨ data = [(1000, 512, false)] ∨ data = []) :
    total (dataOf (demoChain data)) ≤ 512 ∧ ∀ d ∈ demoChain data, d.len < 2 ^ 32 := by
  rw [(demo_data _).2.1]
  rcases h with rfl | rfl | rfl <;> exact ⟨by simp [total], by simp [demoChain]⟩

/-- The sector in the guest's buffer. -/
theorem front_seven : sectorOf ((span 1000 512).map (frontMem 1 7).bytes) 0 = seven := by
  have e : (span 1001 511).map (frontMem 1 7).bytes = zeros 511 := by
    unfold zeros
    rw [List.eq_replicate_iff]
    refine ⟨by simp [span], fun b hb => ?_⟩
    obtain ⟨a, ha, rfl⟩ := List.mem_map.1 hb
    rw [mem_span] at ha
    simp only [frontMem]
    rw [if_neg (by omega), if_neg (by omega)]
  rw [show (512 : Nat) = 511 + 1 from rfl, span_succ, List.map_cons, e]
  unfold sectorOf seven
  rw [Nat.zero_mul, List.drop_zero, List.take_of_length_le (by simp)]
  rfl

/-- A write, a flush, a power loss and a read on one queue, as events on the volume. -/
theorem demo_front : ∃ f m m' m'', FRun [65] 1 512 (frontMem 1 7)
    ([.popped 0 0 (frontMem 1 7) (demoChain [(1000, 512, false)]), .returned 0 0 (frontMem 1 7) (demoChain [(1000, 512, false)]) (some S_OK) m] ++
      [.popped 0 1 (frontMem 4 7) (demoChain []), .returned 0 1 (frontMem 4 7) (demoChain []) (some S_OK) m'] ++ [.crash] ++
      [.popped 0 0 (frontMem 0 1) (demoChain [(1000, 512, true)]), .returned 0 0 (frontMem 0 1) (demoChain [(1000, 512, true)]) (some S_OK) m''])
    [.issue 0 0 (.write 0 1 fun x => sectorOf ((span 1000 512).map (frontMem 1 7).bytes) (x - 0)), .resp 0 0 true [], .issue 0 0 .flush,
      .resp 0 0 true [], .crash, .issue 0 0 (.read 0 1), .resp 0 0 true [some seven]] f := by
  have i1 := front_total [(1000, 512, false)] (by simp)
  have i2 := front_total [] (by simp)
  have i3 := front_total [(1000, 512, true)] (by simp)
  obtain ⟨f1, s1, m, h1, b1, b2, b3, b4, b5, b6, b7, -⟩ := round (dev := [65]) (n := 1) (bs := 512) (mem := frontMem 1 7) (q := 0) .nil (Nat.le_refl _) rfl rfl (zeros_length 512) rfl
    (front_write 7) i1.1 i1.2 (by rw [front_places]; exact front_mapped 1 7) (data := []) (by simp) rfl
  have h2 := h1.step (.guest f1 (frontMem 4 7).bytes)
  have em : ({ f1.mem with bytes := (frontMem 4 7).bytes } : GMem) = frontMem 4 7 := by
    have : f1.mem.ok = (frontMem 4 7).ok := b5
    cases hm : f1.mem; rw [hm] at this; simp only [frontMem] at this ⊢; rw [this]
  rw [em] at h2
  obtain ⟨f2, s2, m', h3, c1, c2, c3, c4, c5, c6, c7, -⟩ := round (q := 0) h2 (Nat.le_of_eq b7) b1 b2 b3 b4 (front_flush 7) i2.1 i2.2
    (by rw [(demo_data _).2.1]; simp [places]) (data := []) (by simp) rfl
  have h4 := h3.step (.crash f2 (frontMem 0 1))
  obtain ⟨f3, s3, m'', h5, -⟩ := round (q := 0) h4 (Nat.le_refl _) rfl rfl (zeros_length 512) rfl (front_read 1) i3.1 i3.2
    (by rw [front_places]; exact front_mapped 0 1) (data := [some seven]) (by simp [Stack.seven_length]) rfl
  refine ⟨f3, m, m', m'', ?_⟩
  have e : ({ f1 with mem := frontMem 4 7 } : Front).qs 0 = f1.qs 0 := rfl
  rw [e, b6] at h5
  simpa [Front.init, Vq.init] using h5

/-- A case of C67: the guest of an encrypted volume writes its buffer, flushes, loses power, and finds the bytes in another
buffer after reading them back. The last fact is what `C67_flushed_survives` says of this run. -/
example : ∃ mv lls et em h ls f, Lazy.Bootable plainCfg [0] mv ∧ Stack.ORun plainCfg lls et em h ∧
    Stack.Device Crypt.toy Crypt.toy_lawful Crypt.toyKeys (fun _ => zeros 512) et ∧ Stack.Device Crypt.toy Crypt.toy_lawful Crypt.toyKeys mv em ∧
    FRun [65] 1 512 (frontMem 1 7) ls (Lazy.visible lls) f ∧ (∀ q k m ds, FLab.popped q k m ds ∈ ls → Sane ds) ∧
    ∃ m m', ls.getLast? = some (.returned 0 0 m (demoChain [(1000, 512, true)]) (some 0) m') ∧ m.bytes 1000 = 1 ∧
      sectorOf ((span 1000 512).map m'.bytes) 0 = seven := by
  obtain ⟨mv, lls, et, em, h, h1, h2, -, -, h5, h6, h7⟩ := Stack.demo_stack (p := Crypt.toy) Crypt.toy_lawful Crypt.toyKeys
    (fun x => sectorOf ((span 1000 512).map (frontMem 1 7).bytes) (x - 0)) front_seven
  obtain ⟨f, m, m', m'', hf⟩ := demo_front
  rw [← h7] at hf
  have hsane : ∀ q k mm ds, FLab.popped q k mm ds ∈ [FLab.popped 0 0 (frontMem 1 7) (demoChain [(1000, 512, false)]), .returned 0 0 (frontMem 1 7) (demoChain [(1000, 512, false)]) (some S_OK) m] ++
      [.popped 0 1 (frontMem 4 7) (demoChain []), .returned 0 1 (frontMem 4 7) (demoChain []) (some S_OK) m'] ++ [.crash] ++
      [.popped 0 0 (frontMem 0 1) (demoChain [(1000, 512, true)]), .returned 0 0 (frontMem 0 1) (demoChain [(1000, 512, true)]) (some S_OK) m''] → Sane ds := by
    intro q k mm ds hm
    simp only [List.mem_append, List.mem_cons, FLab.popped.injEq, reduceCtorEq, List.not_mem_nil, or_false, false_or] at hm
    rcases hm with (⟨-, -, -, rfl⟩ | ⟨-, -, -, rfl⟩) | ⟨-, -, -, rfl⟩
    · exact front_sane _ (by simp)
    · exact front_sane _ (by simp)
    · exact front_sane _ (by simp)
  refine ⟨mv, lls, et, em, h, _, f, h1, h2, h5, h6, hf, hsane, frontMem 0 1, m'', rfl, rfl, ?_⟩
  have := C67_flushed_survives (l0 := []) (l1 := []) (l2 := []) (l3 := []) (l4 := [.crash]) (l5 := []) (x := 0) h1 h2 h5 h6 (by decide) hf hsane rfl
    (front_write 7) (front_flush 7) (front_read 1) ⟨Nat.le_refl _, by decide⟩ ⟨Nat.le_refl _, by decide⟩
    (by intro a b q id off cnt data hm; simp at hm) (quiet_nil _) (quiet_nil _) (quiet_nil _)
    (by intro q id off cnt data hm; simp [FLab.view] at hm) (quiet_nil _) (unanswered_nil _) (by simp) (unanswered_nil _) (unanswered_nil _)
  rw [front_places, front_places] at this
  exact this.trans front_seven

/-- A case of `C67_other_chains`: a read of 500 bytes is refused by the thread itself. -/
example : wanted (frontMem 0 1) (demoChain [(1000, 500, true)]) = none := by
  unfold wanted
  rw [front_head]
  simp [front_wellFormed 0 1 [(1000, 500, true)] (by simp), (front_header 0 1).1, (demo_data [(1000, 500, true)]).2.1, total]

end Verif.Vhost
