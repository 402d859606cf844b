import Verif.Proof.LazyTailDemo
import Verif.Props.Lazy

/-! # C17: the part of the last image stripe past the end of the image

The fetcher copies whole stripes through pooled buffers. A raw image that ends inside a stripe fills only the
beginning of the buffer, and the buffer keeps what an earlier stripe left there. The property is false
(`C17_false`); what holds is that such a sector never shows anything but its own old contents, the initial
contents of a buffer, or image data, possibly encrypted (`C17_tail_origin_partial`). Missing from the English property: that the image
data are never those of another stripe. -/

set_option maxRecDepth 8000

namespace Verif.Lazy
open Verif Verif.Metadata Verif.Disk

variable {D : Type}

theorem readNow_vol {c : Cfg D} {s : Sys D} {q id x : Nat} {v : D} (h : readNow c s q id x v) : v = s.t.vol x := by
  have h := h.2
  simp only [toBase] at h
  rw [exec_read (off := x) (cnt := 1) (got := fun _ => none) (by unfold Dev.issueRead; exact upd_same _ _ _) ⟨Nat.le_refl _, by omega⟩] at h
  unfold Dev.result at h
  simp [Dev.issueRead] at h
  exact h.symm

theorem readNow_of {c : Cfg D} {s : Sys D} {q id x : Nat} (hl : s.sh.isLocal (x / c.ss) = true) : readNow c s q id x (s.t.vol x) := by
  refine ⟨?_, ?_⟩
  · unfold addRead
    have h1 : stripes c { id, off := x, cnt := 1, out := none : QReq D } = [x / c.ss] := by
      simp [stripes, firstStripe, lastStripe]
    have h2 : fetchStatus s.sh [x / c.ss] = .complete := by
      simp only [Shared.isLocal, Bool.or_eq_true, decide_eq_true_eq] at hl
      rcases hl with hl | hl <;> simp [fetchStatus, hl]
    simp only [h1, h2]
  · simp only [toBase]
    rw [exec_read (off := x) (cnt := 1) (got := fun _ => none) (by unfold Dev.issueRead; exact upd_same _ _ _) ⟨Nat.le_refl _, by omega⟩]
    unfold Dev.result
    simp [Dev.issueRead]

/-- C17, the true part: whatever a guest reads past the end of the image, in any history with power losses, is what
the local disk held there, what a guest wrote to that very sector, or what a buffer can hold at that offset: what it was
allocated with, image data of the same offset in some stripe, or one of these encrypted. In particular it is never data
a guest wrote elsewhere. -/
theorem C17_tail_origin_partial {c : Cfg D} {hdrs : Bytes} {tv : Nat → D} {mv : Nat → Bytes} {buf0 : Nat → Nat → D} {Z : D → Prop}
    {ls : List (Lab D)} {s : Sys D} (hb : Bootable c hdrs mv) (hz : ∀ b i, Z (buf0 b i)) (hr : Tame c Z (Sys.boot c hdrs tv mv buf0) ls s)
    {q id x : Nat} {v : D} (hx : pastEnd c x) (hv : readNow c s q id x v) :
    v = tv x ∨ wrote (visible ls) x v ∨ Stale c Z (x % c.ss) v := by
  rw [readNow_vol hv]
  have h := TailInv.run (Sound.boot hb) (tv := tv) (W := wrote (visible ls))
    ⟨fun b i => .init _ (hz b i), .fresh fun x _ => Or.inl rfl, fun q r hr => by cases hr⟩ hr
    (fun q id off cnt data h x hx => ⟨q, id, off, cnt, data, h, hx, rfl⟩)
  exact h.dev.vol x hx

/-- On an unencrypted volume: image data of the same offset as they are in the image. -/
theorem C17_tail_origin_plain_partial {c : Cfg D} {hdrs : Bytes} {tv : Nat → D} {mv : Nat → Bytes} {buf0 : Nat → Nat → D} {Z : D → Prop}
    {ls : List (Lab D)} {s : Sys D} (hb : Bootable c hdrs mv) (he : ∀ x v, c.enc x v = v) (hz : ∀ b i, Z (buf0 b i))
    (hr : Tame c Z (Sys.boot c hdrs tv mv buf0) ls s) {q id x : Nat} {v : D} (hx : pastEnd c x) (hv : readNow c s q id x v) :
    v = tv x ∨ wrote (visible ls) x v ∨ Z v ∨ ∃ k, c.src (k * c.ss + x % c.ss) = some v := by
  rcases C17_tail_origin_partial hb hz hr hx hv with h | h | h
  · exact .inl h
  · exact .inr (.inl h)
  · refine .inr (.inr ?_)
    clear hv
    induction h with
    | init v h => exact .inl h
    | image k v h => exact .inr ⟨k, h⟩
    | enc k v _ ih => rw [he]; exact ih

/-- If whatever the image has at the offsets its last stripe lacks is something a fresh buffer may hold, as it is and
encrypted (an image of a single short stripe; zeros there, on an unencrypted volume), the property holds. -/
theorem C17_tail_clean_partial {c : Cfg D} {hdrs : Bytes} {tv : Nat → D} {mv : Nat → Bytes} {buf0 : Nat → Nat → D} {Z : D → Prop}
    (hb : Bootable c hdrs mv) (hz : ∀ b i, Z (buf0 b i))
    (hc : ∀ x k, pastEnd c x → ∀ v, c.src (k * c.ss + x % c.ss) = some v → Z v) (he : ∀ x v, Z v → Z (c.enc x v)) :
    TailClean c hdrs tv mv buf0 Z := by
  intro ls s hr q id x v hx hv
  rcases C17_tail_origin_partial hb hz hr hx hv with h | h | h
  · exact Or.inl h
  · exact .inr (.inl h)
  · refine .inr (.inr ?_)
    clear hv
    induction h with
    | init v h => exact h
    | image k v h => exact hc x k hx v h
    | enc k v _ ih => exact he _ _ ih

/-- The sector past the end in `tailCfg`. -/
theorem tail_pastEnd : pastEnd tailCfg 33 := by refine ⟨by decide, by decide, by decide⟩

/-- A case of `C17_tail_origin_partial`: the run of seventeen fetches. -/
example : ∃ mv ls s, Bootable tailCfg (List.replicate 17 4) mv ∧ Tame tailCfg (· = 0) (tailBoot mv) ls s ∧ pastEnd tailCfg 33 ∧
    readNow tailCfg s 0 1 33 101 := by
  obtain ⟨mv, hb⟩ := tail_bootable
  obtain ⟨s, ⟨ls, hr, -⟩, h1, h2⟩ := tail_run mv
  exact ⟨mv, ls, s, hb, hr, tail_pastEnd, h2 ▸ readNow_of (by simp [Shared.isLocal, tailCfg, h1])⟩

/-- A case of `C17_tail_clean_partial`: an image of one sector in a volume of two stripes. -/
def shortCfg : Cfg Nat := { demoCfg with src := fun x => if x < 1 then some (100 + x) else none }

example : ∃ mv, Bootable shortCfg [4, 0] mv ∧ TailClean shortCfg [4, 0] (fun x => x) mv (fun _ _ => 0) (· = 0) ∧ pastEnd shortCfg 1 := by
  obtain ⟨mv, hb⟩ := demo_bootable
  have hb' : Bootable shortCfg [4, 0] mv := ⟨hb.ss, hb.load, hb.len, hb.sectors, hb.hs, hb.srcStripes⟩
  refine ⟨mv, hb', C17_tail_clean_partial hb' (fun _ _ => rfl) ?_ (fun _ _ h => h), by decide, by decide, by decide⟩
  rintro x k ⟨h1, h2, h3⟩ v hv
  have h1 : x < 4 := h1
  have h2 : x / 2 < 1 := by simpa [shortCfg, demoCfg] using h2
  have h3 : ¬ x < 1 := by
    intro h; simp [shortCfg] at h3; omega
  have hx : x = 1 := by omega
  subst hx
  exfalso
  have : ¬ (k * 2 + 1 % 2 < 1) := by omega
  simp [shortCfg, demoCfg] at hv

/-- C17 is false. A fresh volume of seventeen stripes over an image that ends inside the last one: all stripes are
fetched in order, none of them fails, the guest does nothing. The sector past the end then reads as the second
sector of the first stripe (sector 1 of the image), which neither the local disk nor the buffers held before. -/
theorem C17_false : ∃ (c : Cfg Nat) (hdrs : Bytes) (tv : Nat → Nat) (mv : Nat → Bytes), Bootable c hdrs mv ∧
    ¬ TailClean c hdrs tv mv (fun _ _ => 0) (· = 0) ∧
    ∃ ls s, Tame c (· = 0) (Sys.boot c hdrs tv mv fun _ _ => 0) ls s ∧ visible ls = [] ∧
      pastEnd c 33 ∧ c.src 1 = some 101 ∧ 1 / c.ss ≠ 33 / c.ss ∧ tv 33 = 7 ∧ ∀ q id, readNow c s q id 33 101 := by
  obtain ⟨mv, hb⟩ := tail_bootable
  obtain ⟨s, ⟨ls, hr, hv⟩, h1, h2⟩ := tail_run mv
  have hrd : ∀ q id, readNow tailCfg s q id 33 101 := fun q id => h2 ▸ readNow_of (by simp [Shared.isLocal, tailCfg, h1])
  refine ⟨tailCfg, List.replicate 17 4, fun _ => 7, mv, hb, fun h => ?_, ls, s, hr, hv, tail_pastEnd, rfl, by decide, rfl, hrd⟩
  rcases h ls s hr 0 0 33 101 tail_pastEnd (hrd 0 0) with h | ⟨_, _, _, _, _, h, -⟩ | h
  · simp at h
  · rw [hv] at h; simp at h
  · simp at h

/-- **C05** past the end of the image: whatever a sector nobody writes holds, all reads of it agree, also with power
losses between them. -/
theorem C05_reads_agree {c : Cfg D} {hdrs : Bytes} {tv : Nat → D} {mv : Nat → Bytes} {b0 : Nat → Nat → D} {s : Sys D} {ls : List (Lab D)}
    {e0 e1 e2 e3 : List (Ev D)} {q r off cnt q' r' off' cnt' x : Nat} {out out' : List (Option D)} (hb : Bootable c hdrs mv)
    (h : Run c (Sys.boot c hdrs tv mv b0) ls s)
    (hv : visible ls = e0 ++ (Ev.issue q r (.read off cnt) :: e1 ++ [Ev.resp q r true out]) ++ e2 ++
      (Ev.issue q' r' (.read off' cnt') :: e3 ++ [Ev.resp q' r' true out']))
    (hx : covers off cnt x) (hx' : covers off' cnt' x) (hq : quiet (visible ls) x)
    (o1 : unanswered (q, r) e1) (o3 : unanswered (q', r') e3) :
    ∃ v, out[x - off]? = some (some v) ∧ out'[x - off']? = some (some v) := by
  obtain ⟨g, d, hd⟩ := C05_refines_plain_disk hb h
  have hsub : ∀ es : List (Ev D), (∀ e ∈ es, e ∈ visible ls) → quiet es x := fun es he => quiet_mono hq he
  rw [hv] at hd
  obtain ⟨m3, g1, g2⟩ := hd.split _ _ rfl
  obtain ⟨m2, g3, g4⟩ := g1.split _ _ rfl
  obtain ⟨m1, g5, g6⟩ := g3.split _ _ rfl
  have r0 : Durable (Dev.fresh (preloadWith c g hdrs tv) : Disk D) x (preloadWith c g hdrs tv x) :=
    ⟨⟨by intro o off cnt data done h; simp [Dev.fresh] at h, rfl⟩, fun u hu => hu⟩
  have r1 := r0.run g5 (hsub _ fun e he => by rw [hv]; simp [he])
  have r2 := r1.run g6 (hsub _ fun e he => by
    rw [hv]
    simp only [List.mem_append, List.mem_cons] at he ⊢
    exact .inl (.inl (.inr he)))
  have r3 := r2.run g4 (hsub _ fun e he => by rw [hv]; simp [he])
  exact ⟨_, r1.toRest.read g6 (hsub _ fun e he => by rw [hv]; simp [he]) o1 hx,
    r3.toRest.read g2 (hsub _ fun e he => by rw [hv]; simp [he]) o3 hx'⟩

/-- While the guest has issued nothing, every request id is free. -/
theorem idle_idFree {c : Cfg D} {hdrs : Bytes} {tv : Nat → D} {mv : Nat → Bytes} {b0 : Nat → Nat → D} {s : Sys D} {ls : List (Lab D)}
    (hb : Bootable c hdrs mv) (h : Run c (Sys.boot c hdrs tv mv b0) ls s) (hv : visible ls = []) (q id : Nat) : s.idFree q id := by
  obtain ⟨g, a, -, hd, hsim⟩ := (run_sim hb rfl h).2.sim
  rw [hv] at hd
  have ha : ∀ o, a.ops o = none := by
    refine hd.inv (fun d => ∀ o, d.ops o = none) (fun _ => rfl) ?_
    intro d1 es1 d2 hs he hd o
    cases hs with
    | exec o x => simp only [Dev.exec, hd o]; exact hd _
    | issue => exact absurd (he _ (List.mem_singleton.mpr rfl)) List.not_mem_nil
    | respond => exact absurd (he _ (List.mem_singleton.mpr rfl)) List.not_mem_nil
    | crash => exact absurd (he _ (List.mem_singleton.mpr rfl)) List.not_mem_nil
  refine ⟨?_, ?_, ?_, ?_⟩
  · cases h1 : s.t.ops (.guest q id) with
    | none => rfl
    | some op =>
      have := hsim.gop q id op h1
      cases op with
      | read => have h2 := this.1; rw [ha] at h2; simp at h2
      | write => have h2 := this.1; rw [ha] at h2; simp at h2
      | flush => obtain ⟨_, h2, _⟩ := this; rw [ha] at h2; simp at h2
  · cases h1 : (s.ch q).img id with
    | none => rfl
    | some p => obtain ⟨_, h2, _⟩ := hsim.img q id p.1 p.2 h1; rw [ha] at h2; simp at h2
  · rintro r hr rfl
    have := (hsim.queue q r hr).2; rw [ha] at this; simp at this
  · rintro p hp rfl
    exact (hsim.fin q p.1 p.2 hp).2 (ha _)

/-- A case of `C05_reads_agree`: after the seventeen fetches the guest writes nothing and reads the sector past the end
of the image. -/
example : ∃ mv ls s, Bootable tailCfg (List.replicate 17 4) mv ∧ Run tailCfg (tailBoot mv) ls s ∧ pastEnd tailCfg 33 ∧
    visible ls = [Ev.issue 0 1 (.read 33 1), Ev.resp 0 1 true [some 101], Ev.issue 0 1 (.read 33 1), Ev.resp 0 1 true [some 101]] := by
  obtain ⟨mv, hb⟩ := tail_bootable
  obtain ⟨s, ⟨ls, hr, hv⟩, h1, h2⟩ := tail_run mv
  have hid := idle_idFree hb hr.run hv 0 1
  have hl : s.sh.isLocal (33 / tailCfg.ss) = true := by simp [Shared.isLocal, tailCfg, h1]
  have one : ∀ s : Sys Nat, s.sh.isLocal (33 / tailCfg.ss) = true → s.t.vol 33 = 101 → s.idFree 0 1 →
      ∃ ls' s', (∀ l s0, Run tailCfg s0 l s → Run tailCfg s0 (l ++ ls') s') ∧
        visible ls' = [Ev.issue 0 1 (.read 33 1), Ev.resp 0 1 true [some 101]] ∧
        s'.sh = s.sh ∧ s'.t.vol 33 = 101 ∧ s'.idFree 0 1 := by
    intro s hl h2 hid
    have st := Step.read (c := tailCfg) s 0 1 33 1 true ⟨by decide, by decide, by decide⟩ (fun h => by cases h) hid
    rw [(readNow_of hl (q := 0) (id := 1)).1] at st
    simp only [toBase] at st
    have st2 := Step.execDataR (c := tailCfg) (s := { s with t := s.t.issueRead (.guest 0 1) 33 1 }) (o := .guest 0 1) (x := 33)
      (off := 33) (cnt := 1) (got := fun _ => none) (by simp [Dev.issueRead]) ⟨Nat.le_refl _, by decide⟩
    obtain ⟨s2, hs2, st2⟩ : ∃ s2, _ = s2 ∧ Step tailCfg _ _ [] s2 := ⟨_, rfl, st2⟩
    have hop : s2.t.ops (.guest 0 1) = some (.read 33 1 (upd (fun _ => none) 33 (some 101))) := by
      rw [← hs2]; simp [Dev.issueRead, h2]
    have st3 := Step.baseDone (c := tailCfg) s2 0 1 true ⟨_, hop, fun _ x hx => by
      have : x = 33 := by have : 33 ≤ x := hx.1; have : x < 33 + 1 := hx.2; omega
      subst this; simp [upd]⟩
    refine ⟨([.ev (.issue 0 1 (.read 33 1)), .toBase 0 { id := 1, off := 33, cnt := 1, out := none }] ++ [] ++
        [.ev (.resp 0 1 true (s2.t.result (.guest 0 1) true))] : List (Lab Nat)),
      { s2 with t := s2.t.complete (.guest 0 1) true }, fun l s0 r => ?_, ?_, ?_, ?_, ?_⟩
    · have r3 := ((r.step st).step st2).step st3
      simpa only [List.append_assoc] using r3
    · simp [visible, Dev.result, hop, upd]
    · show s2.sh = _; rw [← hs2]
    · show s2.t.vol 33 = _; rw [← hs2]; exact h2
    · have h3 : s2.ch = s.ch := by rw [← hs2]
      refine ⟨?_, ?_⟩
      · show (s2.t.complete (.guest 0 1) true).ops _ = none
        simp [Dev.complete]
      · show _ ∧ _
        rw [show ({ s2 with t := s2.t.complete (.guest 0 1) true } : Sys Nat).ch = s.ch from h3]
        exact hid.2
  obtain ⟨l1, s1, f1, v1, e1, w1, i1⟩ := one s hl h2 hid
  obtain ⟨l2, s2, f2, v2, -, -, -⟩ := one s1 (by rw [e1]; exact hl) w1 i1
  exact ⟨mv, _, s2, hb, f2 _ _ (f1 _ _ hr.run), tail_pastEnd, by simp [visible_append, hv, v1, v2]⟩

end Verif.Lazy
