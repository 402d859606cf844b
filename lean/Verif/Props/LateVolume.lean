import Verif.Props.RemoteLate
import Verif.Props.Migration

/-! # C92: what late answers do to a volume

A volume that is fetched from a stripe server by workers as in `Model/RemoteLate`. -/

set_option maxRecDepth 8000

namespace Verif.RemoteLate
open Verif Verif.Metadata Verif.Remote Verif.Disk

/-- A worker of the remote source: whom it was connected to at first, and the requests it was given. -/
structure Worker where
  srv : Srv
  upTo : Nat
  conn : Conn
  jobs : List Job

/-- It was connected to a server of the volume, and whoever it dials later is one, too. -/
def Worker.Ok (V : Volume) (w : Worker) : Prop := Serves V w.srv ∧ connect (.up w.srv w.upTo) = .ok w.conn ∧ ∀ j ∈ w.jobs, j.Ok V

/-- The stripes it was asked for, with the results it sent. -/
def Worker.log (expected : Nat × Nat) (w : Worker) : List (Nat × Except CErr Bytes) := (w.jobs.map Job.k).zip (work expected w.conn w.jobs)

/-- What the volume got for a stripe came from one of the workers, as the result of a request for this stripe. -/
def Fed (expected : Nat × Nat) (ws : List Worker) (r : Nat → Except CErr Bytes) : Prop :=
  ∀ k d, r k = .ok d → ∃ w ∈ ws, (k, Except.ok d) ∈ w.log expected

/-- A volume that was initialised from server `s` and starts, with `r k` the successful result for stripe `k`, if any. -/
structure Cloned (s : Srv) (r : Nat → Except CErr Bytes) (c : Lazy.Cfg Bytes) (mv : Nat → Bytes) : Prop where
  ss : c.ss = stripeSectorCount s.md
  src : c.src = remoteSrc c.ss r
  srcStripes : c.srcStripes = stripesWithData s.md.headers
  boot : Lazy.Bootable c (Meta.newFromSource s.md.shift c.n (hasStripe s.md.headers)).headers mv

/-- The same volume on a server whose devices do not fail. -/
def sound (s : Srv) : Srv := { s with devOk := fun _ => true, srcOk := fun _ => true }

theorem sound_answers {s : Srv} (hz : s.Sized) (hm : Saveable s.md) {r : Nat → Except CErr Bytes}
    (h : ∀ k d, r k = .ok d → s.volume.answer k = .data d) : Answers (sound s) r := by
  intro k d hk
  have hd := h k d hk
  obtain ⟨hw, -⟩ := C31_answer (sound s) hz 0 k rfl rfl
  have hlen : d.length = stripeSize s.md := by
    rw [C31_data_iff] at hd
    rw [← hd.1]; exact stripe_length hz k
  rw [show (sound s).volume = s.volume from rfl, hd] at hw
  obtain ⟨cs', -, h2⟩ := C30_fetch_decodes s.md hm (.data d) _ [] hw (.inl ⟨d, rfl, hlen⟩) [((sound s).handleRead 0 k).1 ++ []] (by simp)
  refine ⟨0, [((sound s).handleRead 0 k).1 ++ []], [], by simp, ?_⟩
  show (clientFetch (some s.md) _).1 = _
  rw [h2]; rfl

/-- **C92**, as far as it goes, for the guest: a volume fetched by any number of workers, each of whose requests got an answer of the
server in one attempt or another. Whatever the guest reads where it has not written is what the served volume holds there. -/
theorem C92_guest_partial {s : Srv} (hz : s.Sized) (hm : Saveable s.md) {expected : Nat × Nat} {ws : List Worker} (hw : ∀ w ∈ ws, w.Ok s.volume)
    (hreach : ∀ w ∈ ws, ∀ p ∈ w.log expected, Reached p.2 = true) {r : Nat → Except CErr Bytes} (hf : Fed expected ws r)
    {c : Lazy.Cfg Bytes} {mv : Nat → Bytes} (hc : Cloned s r c mv)
    {tv : Nat → Bytes} {b0 : Nat → Nat → Bytes} {st : Lazy.Sys Bytes} {ls : List (Lazy.Lab Bytes)}
    (hrun : Lazy.Run c (Lazy.Sys.boot c (Meta.newFromSource s.md.shift c.n (hasStripe s.md.headers)).headers tv mv b0) ls st)
    {pre post : List (Ev Bytes)} {q id off cnt x : Nat} {out : List (Option Bytes)}
    (hv : Lazy.visible ls = pre ++ Ev.issue q id (.read off cnt) :: post ++ [Ev.resp q id true out])
    (hx : covers off cnt x) (hq : quiet pre x) (hq' : quiet post x) (ho : unanswered (q, id) post)
    (hn : x / c.ss < c.n) (hg : c.good x = true) (hd : hasStripe s.md.headers (x / c.ss) = true) :
    out[x - off]? = some (some (s.volume.sector x)) := by
  have hr : ∀ k d, r k = .ok d → s.volume.answer k = .data d := by
    intro k d hk
    obtain ⟨w, hwm, hmem⟩ := hf k d hk
    obtain ⟨h1, h2, h3⟩ := hw w hwm
    obtain ⟨i, hi⟩ := List.mem_iff_getElem?.1 hmem
    unfold Worker.log at hi
    rw [List.getElem?_zip_eq_some] at hi
    obtain ⟨hi1, hi2⟩ := hi
    rw [List.getElem?_map] at hi1
    obtain ⟨j, hj, rfl⟩ := Option.map_eq_some_iff.1 hi1
    refine (C92_right_partial s.volume w.srv h1 w.upTo w.conn h2 expected w.jobs h3 i j hj _ hi2 (fun i' hi' r' hr' => ?_) rfl).2 d rfl
    have hlt : i' < w.jobs.length := by have := (List.getElem?_eq_some_iff.1 hj).1; omega
    refine hreach w hwm ((w.jobs[i']'hlt).k, r') ?_
    refine List.mem_iff_getElem?.2 ⟨i', ?_⟩
    unfold Worker.log
    rw [List.getElem?_zip_eq_some]
    exact ⟨by rw [List.getElem?_map, List.getElem?_eq_getElem hlt]; rfl, hr'⟩
  have hmig : Migration (sound s) r c mv := ⟨hz, hm, sound_answers hz hm hr, hc.ss, hc.src, hc.srcStripes, hc.boot⟩
  exact C36_guest_reads hmig hrun hv hx hq hq' ho hn hg hd

/-- The hypotheses are met: one worker fetches the stripes of the example server, one after the other. -/
example : ∃ (w : Worker) (mv : Nat → Bytes), w.Ok demoSrv.volume ∧ w.jobs.map Job.k = [3, 0, 1] ∧ (∀ p ∈ w.log (2, 4), Reached p.2 = true) ∧
    Fed (2, 4) [w] demoReplies ∧ Cloned demoSrv demoReplies demoNew mv ∧ ∀ x, demoNew.good x = true := by
  let u := (demoSrv.serve [handshake]).length + (demoSrv.serve [handshake ++ readRequest 3]).length +
    (demoSrv.serve [handshake ++ (readRequest 3 ++ readRequest 0)]).length + (demoSrv.serve [handshake ++ (readRequest 3 ++ (readRequest 0 ++ readRequest 1))]).length
  obtain ⟨c, h1, h2⟩ := C92_prompt demoSrv demoSrv_sized demoSrv_saveable (by decide) (fun _ => rfl) (fun _ => rfl) (2, 4) [3, 0, 1] (by decide) u (by
    intro ks' hp
    have hc : ks' = [] ∨ ks' = [3] ∨ ks' = [3, 0] ∨ ks' = [3, 0, 1] := by
      have := hp.length_le
      match ks' with
      | [] => simp
      | [a] => simpa using hp
      | [a, b] => simpa using hp
      | [a, b, d] => simpa using hp
      | _ :: _ :: _ :: _ :: _ => simp at this
    rcases hc with rfl | rfl | rfl | rfl <;> simp only [List.flatMap_cons, List.flatMap_nil, List.append_nil] <;> omega)
  obtain ⟨mv, hm, hg⟩ := demo_migration
  have hlog : (⟨demoSrv, u, c, [3, 0, 1].map (prompt u)⟩ : Worker).log (2, 4) =
      [(3, .ok (demoSrv.volume.stripe 3)), (0, .ok (demoSrv.volume.stripe 0)), (1, .ok (demoSrv.volume.stripe 1))] := by
    unfold Worker.log
    simp only [h2]
    rfl
  refine ⟨⟨demoSrv, u, c, [3, 0, 1].map (prompt u)⟩, mv, ⟨⟨demoSrv_sized, demoSrv_saveable, rfl⟩, h1, ?_⟩, rfl, ?_, ?_,
    ⟨hm.ss, hm.src, hm.srcStripes, hm.boot⟩, hg⟩
  · intro j hj
    simp only [List.map_cons, List.map_nil, List.mem_cons, List.not_mem_nil, or_false] at hj
    rcases hj with rfl | rfl | rfl <;> exact ⟨by decide, fun i s u h => by simp [prompt] at h⟩
  · intro p hp
    rw [hlog] at hp
    simp only [List.mem_cons, List.not_mem_nil, or_false] at hp
    rcases hp with rfl | rfl | rfl <;> rfl
  · intro k d hk
    refine ⟨_, List.mem_singleton.2 rfl, ?_⟩
    rw [hlog]
    match k, hk with
    | 0, hk => cases hk; simp
    | 1, hk => cases hk; simp
    | 2, hk => cases hk
    | 3, hk => cases hk; simp
    | k + 4, hk => simp [demoReplies, clientView, Volume.answer, Srv.volume, demoSrv] at hk

/-! ## A volume with two stripes exchanged -/

/-- What the new volume got: stripe 3 instead of stripe 0, and stripe 0 instead of stripe 3. -/
def crossed : Nat → Except CErr Bytes := fun k =>
  if k = 0 then .ok (demoSrv.volume.stripe 3) else if k = 3 then .ok (demoSrv.volume.stripe 0) else .error .io

def crossedCfg : Lazy.Cfg Bytes := { demoNew with src := remoteSrc 2 crossed, autofetch := false }

/-- The guest's request. -/
def crossedReq : Lazy.QReq Bytes := { id := 7, off := 0, cnt := 1, out := none }

/-- A guest read of sector 0: it waits, and the stripe is copied. -/
theorem crossed_fetch (mv tv : Nat → Bytes) : ∃ s, Lazy.Reach crossedCfg (Lazy.Sys.boot crossedCfg [4, 4, 0, 4] tv mv fun _ _ => [])
    [.issue 0 7 (.read 0 1)] s ∧ s.fl.hdrs = [4, 4, 0, 4] ∧ s.fl.queue = [(0, 1)] ∧ s.fl.free = 16 ∧ s.fl.busy 1 = false ∧
    (s.ch 0).queue = [crossedReq] := by
  have r : Lazy.Reach crossedCfg (Lazy.Sys.boot crossedCfg [4, 4, 0, 4] tv mv fun _ _ => []) [] _ := ⟨[], .nil _, rfl⟩
  have r := r.step (Lazy.Step.read _ 0 7 0 1 true ⟨by decide, by decide, by decide⟩ (fun h => absurd h (by decide))
    ⟨rfl, rfl, (by intro r hr; cases hr), (by intro r hr; cases hr)⟩)
  have r := r.step (Lazy.Step.receiveFetch _ 0 [] rfl)
  have r := r.step (Lazy.Step.startFetch _ true _ _ rfl)
  have r := r.step (Lazy.Step.sourceDone _ 0 true true (fun _ => []) _ _ rfl)
  have r := r.step (Lazy.Step.execData _ (.fetch 0) 0)
  have r := r.step (Lazy.Step.execData _ (.fetch 0) 1)
  have r := r.step (Lazy.Step.targetDone _ 0 true true ⟨_, rfl, fun _ x hx => by
    have : x = 0 ∨ x = 1 := by have : x < 0 + 2 := hx.2; omega
    rcases this with rfl | rfl <;> rfl⟩)
  have r := r.step (Lazy.Step.targetDone _ 0 true true ⟨_, rfl, fun _ => trivial⟩)
  have r := r.step (Lazy.Step.takeFinished _ 0 true [] rfl)
  exact ⟨_, r, rfl, rfl, rfl, rfl, rfl⟩

/-- It is answered. -/
theorem crossed_read (mv tv : Nat → Bytes) : ∃ out s, Lazy.Reach crossedCfg (Lazy.Sys.boot crossedCfg [4, 4, 0, 4] tv mv fun _ _ => [])
    [.issue 0 7 (.read 0 1), .resp 0 7 true out] s := by
  obtain ⟨s, r, h1, h2, h3, h4, h5⟩ := crossed_fetch mv tv
  obtain ⟨s, r, -, -, -, -, g5, -, g7, -⟩ := Lazy.demo_meta r h2 h3 h4 (by rw [h1]; decide) true false (by rw [h1]; decide) (by rw [h1]; decide)
  have hfs : s.sh.fs 0 = .fetched := by rw [g5]; rfl
  have hq : (s.ch 0).queue = [crossedReq] := by rw [g7, h5]
  have hst : Lazy.stripes crossedCfg crossedReq = [0] := by decide
  have hpq : Lazy.processQueue crossedCfg s 0 true = some (Lazy.toBase (s.setCh 0 fun ch =>
      { ch with queue := [], requested := fun k => ch.requested k && !(Lazy.stripes crossedCfg crossedReq).contains k }) 0 crossedReq,
      [.unwait 0 7, .toBase 0 crossedReq]) := by
    unfold Lazy.processQueue
    rw [hq]
    simp only [hst, Lazy.fetchStatus, hfs]
    simp [crossedReq]
  have r := r.step (Lazy.Step.processQueue _ 0 true _ _ hpq)
  simp only [Lazy.toBase, crossedReq] at r
  have r := r.quiet (Lazy.Step.execDataR (o := .guest 0 7) (x := 0) rfl ⟨Nat.le_refl _, by decide⟩)
  have r := r.step (Lazy.Step.baseDone _ 0 7 true ⟨_, rfl, fun _ x hx => by
    have : x = 0 := by have : x < 0 + 1 := hx.2; omega
    subst this; simp [upd]⟩)
  exact ⟨_, _, r⟩

theorem demo_stripe_sector (k i : Nat) (hi : i < 2) : slice (demoSrv.volume.stripe k) (i * 512) 512 = demoSrv.volume.sector (k * 2 + i) := by
  have hsec : ∀ x, (demoSrv.volume.sector x).length = 512 := by
    intro x
    unfold Volume.sector
    split
    · rename_i hf him
      split
      · exact demoSrv_sized.2 _ him _
      · exact demoSrv_sized.1 _
    · exact demoSrv_sized.1 _
  exact flatMap_slice (f := fun i => demoSrv.volume.sector (k * 2 + i)) (fun i => hsec _) 2 i hi

/-- **C92**, a counterexample to the full claim that a guest sees: a volume is cloned from the example server by one worker, and the network
is down while it asks for stripe 0. Later stripe 3 is fetched, and stripe 0 in a second attempt; no error is left. The guest, who has written
nothing, reads sector 0 and is given sector 6. -/
theorem C92_false_guest : ∃ (w : Worker) (r : Nat → Except CErr Bytes) (c : Lazy.Cfg Bytes) (mv tv : Nat → Bytes) (out : List (Option Bytes))
    (ls : List (Lazy.Lab Bytes)) (st : Lazy.Sys Bytes), w.Ok demoSrv.volume ∧ w.jobs.map Job.k = [0, 3, 0] ∧ Fed (2, 4) [w] r ∧ Cloned demoSrv r c mv ∧
    Lazy.Run c (Lazy.Sys.boot c (Meta.newFromSource demoSrv.md.shift c.n (hasStripe demoSrv.md.headers)).headers tv mv fun _ _ => []) ls st ∧
    Lazy.visible ls = [.issue 0 7 (.read 0 1), .resp 0 7 true out] ∧ out[0]? = some (some (demoSrv.volume.sector 6)) ∧
    demoSrv.volume.sector 0 ≠ demoSrv.volume.sector 6 ∧ hasStripe demoSrv.md.headers 0 = true := by
  let u := (demoSrv.serve [handshake]).length + (demoSrv.serve [handshake ++ readRequest 0 ++ readRequest 3]).length +
    (demoSrv.serve [handshake ++ readRequest 0 ++ readRequest 3 ++ readRequest 0]).length
  obtain ⟨c, h1, -, -, -⟩ := connect_full (V := demoSrv.volume) ⟨demoSrv_sized, demoSrv_saveable, rfl⟩ (by decide) (u := u) (by omega)
  have hwork : work (2, 4) c [down 0, prompt u 3, prompt u 0] = [.error .io, .ok (demoSrv.volume.stripe 0), .ok (demoSrv.volume.stripe 3)] := by
    refine C92_false_behind demoSrv demoSrv_sized demoSrv_saveable (fun _ => rfl) (fun _ => rfl) _ c h1 (2, 4) 0 [3, 0] (by decide)
      (by simp) u fun ks' k' hp => ?_
    have hc : (ks' = [] ∧ k' = 3) ∨ (ks' = [3] ∧ k' = 0) := by
      have := hp.length_le
      match ks' with
      | [] => left; simpa using hp
      | [a] => right; simpa using hp
      | _ :: _ :: _ => simp at this
    rcases hc with ⟨rfl, rfl⟩ | ⟨rfl, rfl⟩
    · simp only [List.flatMap_nil, List.append_nil]
      omega
    · simp only [List.flatMap_cons, List.flatMap_nil, List.append_nil]
      omega
  have hhd : (Meta.newFromSource demoSrv.md.shift crossedCfg.n (hasStripe demoSrv.md.headers)).headers = [4, 4, 0, 4] := by decide
  have hsv : Saveable (Meta.newFromSource 1 4 (hasStripe demoSrv.md.headers)) := ⟨rfl, rfl, rfl, by decide, by decide⟩
  obtain ⟨mv, hmv⟩ := saved_bootable (c := crossedCfg) hsv (by decide) (by decide) (by decide) (fun _ => rfl) (by decide)
  obtain ⟨out, st, ls, hrun, hvis⟩ := crossed_read mv fun _ => zeros 512
  have hsrc : crossedCfg.src 0 = some (demoSrv.volume.sector 6) := by
    show remoteSrc 2 crossed 0 = _
    have hl : (demoSrv.volume.stripe 3).length = 1024 := stripe_length demoSrv_sized 3
    unfold remoteSrc crossed
    simp only [Nat.zero_div, if_true, deliver, zeros_length, hl]
    rw [← demo_stripe_sector 3 0 (by decide)]
    simp [zeros]
  have hgood : crossedCfg.good 0 = true := by
    unfold Lazy.Cfg.good
    rw [show crossedCfg.src 0 = some _ from hsrc]
    simp
  rw [← hhd] at hrun
  have hout := Lazy.C05_read_unwritten (pre := []) (post := []) (x := 0) hmv hrun (by rw [hvis]; rfl) ⟨Nat.le_refl _, by decide⟩ hgood
    (by intro _ _ _ _ _ he; cases he) (by intro _ _ _ _ _ he; cases he) (by intro e he; cases he)
  refine ⟨⟨demoSrv, u, c, [down 0, prompt u 3, prompt u 0]⟩, crossed, crossedCfg, mv, fun _ => zeros 512, out, ls, st,
    ⟨⟨demoSrv_sized, demoSrv_saveable, rfl⟩, h1, ?_⟩, rfl, ?_, ⟨rfl, rfl, by decide, hmv⟩, hrun, hvis, ?_, ?_, by decide⟩
  · intro j hj
    simp only [List.mem_cons, List.not_mem_nil, or_false] at hj
    rcases hj with rfl | rfl | rfl <;> exact ⟨by decide, fun i s u h => by simp [down, prompt] at h⟩
  · intro k d hk
    refine ⟨_, List.mem_singleton.2 rfl, ?_⟩
    unfold Worker.log
    simp only [hwork]
    unfold crossed at hk
    split at hk
    · rename_i h; subst h; rw [← hk]; simp [down, prompt]
    · split at hk
      · rename_i h; subst h; rw [← hk]; simp [down, prompt]
      · cases hk
  · have : Lazy.preload crossedCfg (Meta.newFromSource demoSrv.md.shift crossedCfg.n (hasStripe demoSrv.md.headers)).headers (fun _ => zeros 512) 0 =
        demoSrv.volume.sector 6 := by
      unfold Lazy.preload Lazy.preloadWith
      rw [hhd, hsrc]
      rfl
    exact hout.trans (congrArg (fun v => some (some v)) this)
  · intro h
    have : (demoSrv.volume.sector 0).take 1 = (demoSrv.volume.sector 6).take 1 := by rw [h]
    revert this
    decide +kernel

end Verif.RemoteLate
