import Verif.Props.Stack
import Verif.Props.RestoreLimits
import Verif.Props.Crypt
import Verif.Proof.StackComplete
import Verif.Proof.CryptComplete

/-! # C65: the hypotheses are met

Beside the concrete case, two general facts: every run of the closed model of the lazily fetched disk in which submissions are
accepted is one of the composed layers, and every history of a plain disk is one of each kind of device. -/

set_option maxRecDepth 8000

namespace Verif.Stack
open Verif Verif.Metadata Verif.Disk Verif.Crypt Verif.Lazy
open Verif.Restore (seven plainCfg plain_bootable)

variable {p : Xts} {hp : p.Lawful} {k : Keys} {c : Cfg Bytes} {hdrs : Bytes} {tv : Nat → Bytes} {mv : Nat → Bytes}

theorem Engine.all {D : Type} {v : Nat → D} {es : List (Ev D)} {d : Disk D} (h : Disk.Run (Dev.fresh v) es d) : Engine v es := by
  obtain ⟨as, s, h1, rfl, -⟩ := Uring.complete_run (cap := 64) (by decide) h rfl
  exact .uring 64 as s h1

/-- Every history of a plain disk is one of an unencrypted device. -/
theorem Device.all_clear {v : Nat → Bytes} {es : List (Ev Bytes)} {d : Disk Bytes} (h : Disk.Run (Dev.fresh v) es d) : Device p hp k v es :=
  .clear (Engine.all h)

/-- With 512-byte sectors also of an encrypted one, whose file holds the ciphertext. -/
theorem Device.all_encrypted {v : Nat → Bytes} {es : List (Ev Bytes)} {d : Disk Bytes} (h : Disk.Run (Dev.fresh v) es d)
    (hv : ∀ x, (v x).length = 512) (hs : SizedEvs es) :
    ∃ ws rd, CryptRun p k es ws rd ∧ Engine (fun x => cipher hp k x (v x)) ws ∧ Device p hp k v es := by
  obtain ⟨ws, rd, d', h1, h2, -⟩ := crypt_complete hp (k := k) hv h rfl hs
  exact ⟨ws, rd, h1, Engine.all h2, .encrypted _ (fun x => (plain_cipher hp x (hv x)).symm) h1 (Engine.all h2)⟩

/-- **C65**: every behaviour of the closed model with accepted submissions is one of the composed layers. -/
theorem C65_realised {b0 : Nat → Nat → Bytes} {ls : List (Lab Bytes)} {s : Sys Bytes} (hb : Bootable c hdrs mv)
    (h : ARun c (Sys.boot c hdrs tv mv b0) ls s) : ∃ et em hst, ORun c ls et em hst ∧ Device p hp k tv et ∧ Device p hp k mv em := by
  obtain ⟨et, em, hst, h1, -, h2, h3⟩ := closed_open hb h rfl
  exact ⟨et, em, hst, h1, .all_clear h2, .all_clear h3⟩

/-! ## Sizes -/

/-- Labels that put only whole sectors on the data device, and no stripe of the source. -/
def Plain : Lab Bytes → Prop
  | .toBase _ r => ∀ data, r.out = some data → ∀ x, covers r.off r.cnt x → (data x).length = 512
  | .fetchWrite _ => False
  | _ => True

theorem ORun.sized {ls : List (Lab Bytes)} {et em : List (Ev Bytes)} {h : Host Bytes} (hr : ORun c ls et em h) :
    ((∀ l ∈ ls, Plain l) → SizedEvs et) ∧ SizedEvs em := by
  induction hr with
  | nil => exact ⟨fun _ _ _ _ _ _ h => (by cases h), fun _ _ _ _ _ h => (by cases h)⟩
  | step hr hs ih =>
    rename_i ls ls' et et' em em' h h'
    have hd : ∀ {a b : List (Ev Bytes)}, SizedEvs a → SizedEvs b → SizedEvs (a ++ b) := fun ha hb q id off cnt data hm =>
      (List.mem_append.1 hm).elim (ha q id off cnt data) (hb q id off cnt data)
    have hst : ((∀ l ∈ ls', Plain l) → SizedEvs et') ∧ SizedEvs em' := by
      cases hs with
      | call u a _ s' ha h =>
        refine ⟨fun hl q id off cnt data hm x hx => ?_, fun q id off cnt data hm x _ => ?_⟩
        · simp only [issues, List.mem_map, List.mem_flatMap] at hm
          obtain ⟨⟨o, r⟩, ⟨l, h1, h2⟩, h3⟩ := hm
          simp only [Ev.issue.injEq] at h3
          obtain ⟨-, -, rfl⟩ := h3
          have hp := hl l h1
          unfold handed at h2
          split at h2
          · rename_i q r
            simp only [List.mem_singleton, Prod.mk.injEq] at h2
            obtain ⟨-, h2⟩ := h2
            unfold reqOf at h2
            split at h2
            · cases h2
            · rename_i data' ho
              simp only [Req.write.injEq] at h2
              obtain ⟨e1, e2, e3⟩ := h2
              rw [e3]; exact hp _ ho x (by rw [← e1, ← e2]; exact hx)
          · simp at h2
          · exact hp.elim
          · cases h2
        · simp only [metaIssues, List.mem_map] at hm
          obtain ⟨⟨o, r⟩, h2, h3⟩ := hm
          simp only [Ev.issue.injEq] at h3
          obtain ⟨-, -, rfl⟩ := h3
          unfold handedMeta at h2
          split at h2
          · split at h2
            · split at h2
              · cases h2
              · simp only [List.mem_singleton, Prod.mk.injEq, Req.write.injEq] at h2
                rw [h2.2.2.2]; exact writeSector_length _
            · cases h2
          · cases h2
      | handleFetch u k ok data h =>
        refine ⟨fun _ q id off cnt data hm => ?_, fun _ _ _ _ _ h => (by cases h)⟩
        simp only [issues, List.mem_map] at hm
        obtain ⟨⟨o, r⟩, h2, h3⟩ := hm
        split at h2
        · simp only [List.mem_singleton, Prod.mk.injEq] at h2
          obtain ⟨rfl, rfl⟩ := h2
          simp at h3
        · cases h2
      | handleMeta u k ok data h =>
        refine ⟨fun _ _ _ _ _ _ h => (by cases h), fun q id off cnt data hm => ?_⟩
        simp only [metaIssues, List.mem_map] at hm
        obtain ⟨⟨o, r⟩, h2, h3⟩ := hm
        split at h2
        · simp only [List.mem_singleton, Prod.mk.injEq] at h2
          obtain ⟨rfl, rfl⟩ := h2
          simp at h3
        · cases h2
      | _ => exact ⟨fun _ q id off cnt data hm => by simp at hm, fun q id off cnt data hm => by simp at hm⟩
    exact ⟨fun hl => hd (ih.1 fun l hm => hl l (List.mem_append_left _ hm)) (hst.1 fun l hm => hl l (List.mem_append_right _ hm)),
      hd ih.2 hst.2⟩

/-! ## A guest of an encrypted volume -/

/-- Reached by accepted submissions and plain labels. -/
def Via (c : Cfg Bytes) (s0 : Sys Bytes) (es : List (Ev Bytes)) (s : Sys Bytes) : Prop :=
  ∃ ls, ARun c s0 ls s ∧ visible ls = es ∧ ∀ l ∈ ls, Plain l

theorem Via.step {s0 s s' : Sys Bytes} {es : List (Ev Bytes)} {a : Act Bytes} {ls : List (Lab Bytes)} (h : Via c s0 es s)
    (hs : Step c s a ls s') (ha : accepted a = true) (hl : ∀ l ∈ ls, Plain l) : Via c s0 (es ++ visible ls) s' := by
  obtain ⟨ls0, h1, h2, h3⟩ := h
  exact ⟨_, h1.step hs ha, by rw [visible_append, h2], fun l hm => (List.mem_append.1 hm).elim (h3 l) (hl l)⟩

theorem Via.quiet {s0 s s' : Sys Bytes} {es : List (Ev Bytes)} {a : Act Bytes} (h : Via c s0 es s)
    (hs : Step c s a [] s') (ha : accepted a = true) : Via c s0 es s' := by
  have := h.step hs ha (by simp)
  rwa [show visible ([] : List (Lab Bytes)) = [] from rfl, List.append_nil] at this

theorem seven_length : seven.length = 512 := by simp [seven]

/-- One sector written, acknowledged and flushed, a power loss, and the sector read back. -/
theorem demo_via {mv : Nat → Bytes} (hb : Bootable plainCfg [0] mv) (dt : Nat → Bytes) (hdt : dt 0 = seven) : ∃ s,
    Via plainCfg (Sys.boot plainCfg [0] (fun _ => zeros 512) mv fun _ _ => zeros 512)
      [.issue 0 0 (.write 0 1 dt), .resp 0 0 true [], .issue 0 0 .flush, .resp 0 0 true [], .crash,
        .issue 0 0 (.read 0 1), .resp 0 0 true [some seven]] s := by
  have r : Via plainCfg (Sys.boot plainCfg [0] (fun _ => zeros 512) mv fun _ _ => zeros 512) [] _ := ⟨[], .nil _, rfl, by simp⟩
  have st := Step.write (c := plainCfg) (Sys.boot plainCfg [0] (fun _ => zeros 512) mv fun _ _ => zeros 512) 0 0 0 1 dt true
    ⟨by decide, by decide, by decide⟩ ⟨rfl, rfl, (by intro r hr; cases hr), (by intro r hr; cases hr)⟩
  have hadd : addWrite plainCfg (Sys.boot plainCfg [0] (fun _ => zeros 512) mv fun _ _ => zeros 512) 0 0 0 1 dt true =
      (toBase (Sys.boot plainCfg [0] (fun _ => zeros 512) mv fun _ _ => zeros 512) 0 { id := 0, off := 0, cnt := 1, out := some dt },
        [.toBase 0 { id := 0, off := 0, cnt := 1, out := some dt }]) := by
    have e1 : stripes plainCfg ({ id := 0, off := 0, cnt := 1, out := some dt } : QReq Bytes) =
        stripes plainCfg ({ id := 0, off := 0, cnt := 1, out := none } : QReq Bytes) := by unfold stripes; rfl
    have e : fetchStatus (Sys.boot plainCfg [0] (fun _ => zeros 512) mv fun _ _ => zeros 512).sh
        (stripes plainCfg ({ id := 0, off := 0, cnt := 1, out := none } : QReq Bytes)) = .complete := rfl
    unfold addWrite
    simp only [e1, e]
    rfl
  rw [hadd] at st
  have hpl : ∀ x, covers 0 1 x → (dt x).length = 512 := fun x hx => by
    have : x = 0 := by have : x < 0 + 1 := hx.2; omega
    rw [this, hdt]; exact seven_length
  have r := r.step st rfl (by simpa [Plain] using hpl)
  simp only [toBase] at r
  have r := r.quiet (Step.execDataW (o := .guest 0 0) (x := 0) rfl ⟨Nat.le_refl _, by decide⟩) rfl
  have r := r.step (Step.baseDone _ 0 0 true ⟨_, rfl, fun _ x hx => by
    have : x = 0 := by have : x < 0 + 1 := hx.2; omega
    subst this; rfl⟩) rfl (by simp [Plain])
  have r := r.step (Step.flush _ 0 0 ⟨by simp [Sys.setCh, Dev.complete, Dev.issueWrite, upd, Sys.boot, Dev.fresh], rfl,
    (by intro r hr; cases hr), (by intro r hr; cases hr)⟩) rfl (by simp [Plain])
  have r := r.step (Step.baseDone _ 0 0 true ⟨_, rfl, fun _ => trivial⟩) rfl (by simp [Plain])
  obtain ⟨s, r, hm1, ht1⟩ : ∃ s, Via plainCfg (Sys.boot plainCfg [0] (fun _ => zeros 512) mv fun _ _ => zeros 512) 
      [.issue 0 0 (.write 0 1 dt), .resp 0 0 true [], .issue 0 0 .flush, .resp 0 0 true []] s ∧ s.m = Dev.fresh mv ∧
      s.t.vol = upd (fun _ => zeros 512) 0 seven := by
    have e : ∀ l l' : List (Ev Bytes), l = l' → ∀ s0 s, Via plainCfg s0 l s → Via plainCfg s0 l' s := by
      intro l l' h s0 s; rw [h]; exact id
    rw [← hdt]
    refine ⟨_, e _ _ ?_ _ _ r, rfl, rfl⟩
    simp [visible, Dev.result, Dev.issueFlush, Dev.issueWrite]
  obtain ⟨ls, hr, hv, hpl⟩ := r
  obtain ⟨⟨⟨hd, mv1, hb1, hm⟩, hf⟩, hfam⟩ := run_sim hb rfl hr.run
  obtain ⟨gg, d, hpin, -, hsim⟩ := hfam.sim
  have hmv : s.m.survives mv := by rw [hm1]; exact fun x => rfl
  have htv : s.t.survives s.t.vol := hsim.tinv.vol_pers
  obtain ⟨md, hld, hmd⟩ := hb.load
  have hr2 := ARun.crash (fun _ _ => zeros 512) hr htv hmv hld
  have r : Via plainCfg (Sys.boot plainCfg [0] (fun _ => zeros 512) mv fun _ _ => zeros 512) _ _ :=
    ⟨_, hr2, rfl, fun l hm => (List.mem_append.1 hm).elim (hpl l) fun h => by simp at h; subst h; trivial⟩
  rw [hmd] at r
  generalize s.t.vol = w at r ht1
  subst ht1
  have st := Step.read (c := plainCfg) (Sys.boot plainCfg [0] (upd (fun _ => zeros 512) 0 seven) mv fun _ _ => zeros 512) 0 0 0 1 true
    ⟨by decide, by decide, by decide⟩ (fun h => by cases h)
    ⟨rfl, rfl, (by intro r hr; cases hr), (by intro r hr; cases hr)⟩
  have hadd : addRead plainCfg (Sys.boot plainCfg [0] (upd (fun _ => zeros 512) 0 seven) mv fun _ _ => zeros 512) 0 0 0 1 true =
      (toBase (Sys.boot plainCfg [0] (upd (fun _ => zeros 512) 0 seven) mv fun _ _ => zeros 512) 0 { id := 0, off := 0, cnt := 1, out := none },
        [.toBase 0 { id := 0, off := 0, cnt := 1, out := none }]) := rfl
  rw [hadd] at st
  have r := r.step st rfl (by simp [Plain])
  simp only [toBase] at r
  have r := r.quiet (Step.execDataR (o := .guest 0 0) (x := 0) rfl ⟨Nat.le_refl _, by decide⟩) rfl
  have r := r.step (Step.baseDone _ 0 0 true ⟨_, rfl, fun _ x hx => by
    have : x = 0 := by have : x < 0 + 1 := hx.2; omega
    subst this; simp [upd]⟩) rfl (by simp [Plain])
  have e : ∀ l l' : List (Ev Bytes), l = l' → ∀ s0 s, Via plainCfg s0 l s → Via plainCfg s0 l' s := by
    intro l l' h s0 s; rw [h]; exact id
  refine ⟨_, e _ _ ?_ _ _ r⟩
  rw [visible_append, hv]
  simp [visible, Dev.result, upd, Sys.boot, Dev.fresh, Dev.issueRead, List.range_succ]

/-- The hypotheses of C65 are met by an encrypted volume whose guest writes, flushes, loses power and reads. -/
theorem demo_stack (hp : p.Lawful) (k : Keys) (dt : Nat → Bytes) (hdt : dt 0 = seven) : ∃ mv ls et em h, Bootable plainCfg [0] mv ∧ ORun plainCfg ls et em h ∧
    (∃ ws rd, CryptRun p k et ws rd ∧ Engine (fun x => cipher hp k x (zeros 512)) ws) ∧ (∃ ws rd, CryptRun p k em ws rd ∧ Engine (fun x => cipher hp k x (mv x)) ws) ∧
    Device p hp k (fun _ => zeros 512) et ∧ Device p hp k mv em ∧
    visible ls = [.issue 0 0 (.write 0 1 dt), .resp 0 0 true [], .issue 0 0 .flush, .resp 0 0 true [], .crash,
        .issue 0 0 (.read 0 1), .resp 0 0 true [some seven]] := by
  obtain ⟨mv, hb⟩ := plain_bootable
  obtain ⟨s, ls, hr, hv, hpl⟩ := demo_via hb dt hdt
  obtain ⟨et, em, hst, h1, -, h2, h3⟩ := closed_open hb hr rfl
  obtain ⟨hs1, hs2⟩ := h1.sized
  obtain ⟨ws, rd, a1, a2, a3⟩ := Device.all_encrypted (p := p) (hp := hp) (k := k) h2 (fun _ => zeros_length _) (hs1 hpl)
  obtain ⟨ws', rd', b1, b2, b3⟩ := Device.all_encrypted (p := p) (hp := hp) (k := k) h3 hb.sectors hs2
  exact ⟨mv, ls, et, em, hst, hb, h1, ⟨ws, rd, a1, a2⟩, ⟨ws', rd', b1, b2⟩, a3, b3, hv⟩

/-- A case of `C65_stack` and of `C65_flushed_survives`, on the toy cipher: the guest reads what it wrote before the power loss. -/
example : ∃ mv ls et em h, Bootable plainCfg [0] mv ∧ ORun plainCfg ls et em h ∧
    Device toy toy_lawful toyKeys (fun _ => zeros 512) et ∧ Device toy toy_lawful toyKeys mv em ∧
    visible ls = ([] ++ Ev.issue 0 0 (.write 0 1 fun _ => seven) :: [] ++ [Ev.resp 0 0 true []]) ++ [] ++
      (Ev.issue 0 0 .flush :: [] ++ [Ev.resp 0 0 true []]) ++ [.crash] ++
      (Ev.issue 0 0 (.read 0 1) :: [] ++ [Ev.resp 0 0 true [some seven]]) ∧
    covers 0 1 0 ∧ settledWrites ([] : List (Ev Bytes)) 0 ∧ quiet ([.crash] : List (Ev Bytes)) 0 := by
  obtain ⟨mv, ls, et, em, h, h1, h2, -, -, h5, h6, h7⟩ := demo_stack toy_lawful toyKeys (fun _ => seven) rfl
  refine ⟨mv, ls, et, em, h, h1, h2, h5, h6, h7, ⟨Nat.le_refl _, by decide⟩, ?_, ?_⟩
  · intro a b q id off cnt data hm; simp at hm
  · intro q id off cnt data hm; simp at hm

/-- A case of `C65_only_ciphertext`: a write of one sector through the encrypting channel. -/
example : ∃ (ws : List (Ev Sector)) (rd : Nat × Nat → Option (Nat × Nat)) (data : Nat → Sector),
    CryptRun toy toyKeys [.issue 0 7 (.write 1 1 fun _ => seven)] ws rd ∧ Ev.issue 0 7 (.write 1 1 data) ∈ ws ∧ covers 1 1 1 ∧
      (data 1).1 = encSector toy toyKeys 1 seven ∧ (data 1).1 ≠ seven := by
  obtain ⟨buf, b1, b2, b3⟩ := buffer_of (off := 1) (cnt := 1) (data := fun _ => seven) fun _ _ => seven_length
  obtain ⟨buf', e1, e2, e3, -⟩ := encrypt_ok (k := toyKeys) (start := 1) toy_lawful (Nat.le_of_eq b1.symm)
  have hv : (bufData buf' 1 1 1).1 = encSector toy toyKeys 1 seven := by
    rw [bufData, if_pos ⟨Nat.le_refl _, by decide⟩, e3 0 (by decide), b2 0 (by decide)]
    show encSector toy toyKeys 1 (sec seven).1 = _
    rw [sec_val seven_length]
  refine ⟨_, _, _, CryptRun.nil.step (.write _ 0 7 1 1 (fun _ => seven) buf buf' b3 e1), List.mem_singleton.2 rfl,
    ⟨Nat.le_refl _, by decide⟩, hv, ?_⟩
  rw [hv]
  intro h
  have := congrArg List.head? h
  revert this
  decide

end Verif.Stack
