import Verif.Props.UblkFront
import Verif.Props.StackDemo

/-! # C68: a ublk device on an encrypted volume at work -/

set_option maxRecDepth 8000

namespace Verif.Ublk
open Verif Verif.Metadata Verif.Disk Verif.Vhost
open Verif.Restore (seven plainCfg)

/-- Queue 0 has nothing to do. -/
structure Idle (f : KFront) : Prop where
  loop : (f.qs 0).looping = false
  pend : (f.qs 0).pending = []
  chan : (f.qs 0).chan = []
  queued : (f.qs 0).queued = false
  out : (f.qs 0).out 0 = none
  back : ((f.qs 0).back 0).length = 512
  box : f.box (0, 0) = none

theorem Idle.init : Idle (KFront.init 512) := ⟨rfl, rfl, rfl, rfl, rfl, zeros_length 512, rfl⟩

/-- A request from its arrival to its completion. -/
theorem kround {ls : List KLab} {es : List (Ev Bytes)} {f : KFront} (h : KRun 512 1 ls es f) (hi : Idle f) {a : Ask} {r : Req Bytes}
    (hd : a.data.length = 512) {data : List (Option Bytes)} (hdt : ∀ b ∈ data, ∃ s : Bytes, b = some s ∧ s.length = 512)
    (hc : match r with | .read _ cnt => data.length = cnt | _ => data = []) (hw : a.wanted 512 = some r) :
    ∃ f' n buf, KRun 512 1 (ls ++ [.asked 0 0 a, .completed 0 0 a (some n) buf]) (es ++ [.issue 0 0 r, .resp 0 0 true data]) f' ∧ Idle f' := by
  have hsz : a.cnt * 512 ≤ 512 := by
    unfold Ask.wanted at hw
    split at hw
    · cases hw
    · omega
  have h1 := h.step (.arrive f 0 a 0 true hi.loop hi.out (by decide) hd)
  have hh : handle 512 (f.qs 0) a.flags a.off a.cnt 0 true a.data =
      ({ f.qs 0 with bufs := upd (f.qs 0).bufs 0 a.data, out := upd (f.qs 0).out 0 (some (rqOf a 0)), pending := [rqOf a 0], looping := true },
        [.arrive a.flags (rqOf a 0)]) := by
    unfold handle
    simp only [if_neg (show ¬ a.cnt * 512 > 512 by omega), hi.pend]; rfl
  simp only [hh] at h1
  generalize hb1 : ({ f.qs 0 with bufs := upd (f.qs 0).bufs 0 a.data, out := upd (f.qs 0).out 0 (some (rqOf a 0)), pending := [rqOf a 0], looping := true } : Ub) = b1 at h1
  obtain ⟨b1q, hb1q⟩ : ∃ b, b = ({ b1 with pending := [] } : Ub) := ⟨_, rfl⟩
  have hdw := devReq_wanted (maxIo := 512) (b := b1q) (a := a) (tag := 0) (by rw [hb1q, ← hb1]; exact hi.back) (by rw [hb1q, ← hb1]; simpa using hd) hsz
    (by rw [hb1q, ← hb1]; simp)
  rw [hw] at hdw
  obtain ⟨dq, hdq, hr⟩ := Option.map_eq_some_iff.1 hdw
  have h2 := h1.step (.enqueue _ 0 (rqOf a 0) [] (by simp [← hb1]) (by simp [← hb1]))
  simp only [upd_same, ← hb1q] at h2
  obtain ⟨bk, hbk, he⟩ : ∃ bk : Nat → Bytes, (bk 0).length = 512 ∧ enqueue b1q (rqOf a 0) =
      ({ b1q with chan := b1q.chan ++ [(0, dq)], inflight := upd b1q.inflight 0 (some (rqOf a 0)), back := bk, queued := true }, [.dev 0 dq]) := by
    have hb : (b1q.back 0).length = 512 := by rw [hb1q, ← hb1]; exact hi.back
    unfold enqueue; rw [hdq]
    refine ⟨_, ?_, rfl⟩
    split
    · simp only [rqOf, upd_same]
      rw [splice_len0, hb]
      rw [hb, List.length_take]; omega
    · exact hb
  simp only [he] at h2
  have ch1 : b1q.chan = [] := by rw [hb1q, ← hb1]; exact hi.chan
  have pd1 : b1q.pending = [] := by rw [hb1q]
  have lp1 : b1q.looping = true := by rw [hb1q, ← hb1]
  generalize hb2 : ({ b1q with chan := b1q.chan ++ [(0, dq)], inflight := upd b1q.inflight 0 (some (rqOf a 0)), back := bk, queued := true } : Ub) = b2 at h2
  have h3 := h2.step (.submit _ 0 (by rw [← hb2]; simpa using lp1) (by rw [← hb2]; simpa using pd1))
  simp only [upd_same] at h3
  generalize hb3 : ({ b2 with queued := false } : Ub) = b3 at h3
  have h4 := h3.step (.deliver _ 0 0 true data (by exact hi.box))
  obtain ⟨buf, hbuf⟩ : ∃ buf : Bytes, buf = data.flatMap fun b => b.getD [] := ⟨_, rfl⟩
  have hflat : buf.length = data.length * 512 := by
    rw [hbuf]
    clear hbuf hc h4
    induction data with
    | nil => rfl
    | cons b data ih =>
      obtain ⟨s, rfl, e⟩ := hdt b (.head _)
      rw [List.flatMap_cons, List.length_append, ih fun b hb => hdt b (.tail _ hb), List.length_cons, Option.getD_some, e]; omega
  have hfill : dq.filled buf := by
    rw [← hr] at hc
    cases dq with
    | read sec cnt => show buf.length = cnt * 512; rw [hflat, show data.length = cnt from hc]
    | write sec cnt d => show buf = []; rw [hbuf, show data = [] from hc]; rfl
    | flush => show buf = []; rw [hbuf, show data = [] from hc]; rfl
  have ch3 : b3.chan = [(0, dq)] := by rw [← hb3, ← hb2]; simp [ch1]
  have pd3 : b3.pending = [] := by rw [← hb3, ← hb2]; exact pd1
  have lp3 : b3.looping = true := by rw [← hb3, ← hb2]; exact lp1
  have q3 : b3.queued = false := by rw [← hb3]
  have in3 : b3.inflight 0 = some (rqOf a 0) := by rw [← hb3, ← hb2]; simp
  have bk3 : b3.back = bk := by rw [← hb3, ← hb2]
  have h5 := h4.step (.report _ 0 0 true data buf [] [] dq (upd_same f.box (0, 0) _) (by simpa using lp3) (by simpa using pd3) (by simpa using q3)
    (by simpa using ch3) hfill (fun _ => ⟨hdt, hbuf⟩))
  simp only [upd_same, List.append_nil] at h5
  have hbl : buf.length ≤ 512 := by
    cases dq with
    | read sec cnt =>
      have : (rqOf a 0).cnt = cnt := (devReq_match hdq).2.2
      have : a.cnt = cnt := this
      have : buf.length = cnt * 512 := hfill
      omega
    | write => rw [show buf = [] from hfill]; simp
    | flush => rw [show buf = [] from hfill]; simp
  obtain ⟨b4, n, rb, hrep, e1, e2, e3, e4, e5, e6⟩ : ∃ b4 n rb, report { b3 with chan := [], back := upd b3.back 0 (buf ++ (b3.back 0).drop buf.length) } 0 true =
      (b4, [.complete 0 (some n) rb]) ∧ b4.pending = [] ∧ b4.chan = [] ∧ b4.queued = false ∧ b4.out 0 = none ∧ (b4.back 0).length = 512 ∧ b4.looping = true := by
    have hl : (buf ++ (b3.back 0).drop buf.length).length = 512 := by
      rw [List.length_append, List.length_drop, bk3, hbk]; omega
    unfold report
    simp only [in3, completeRequest, Bool.not_true, Bool.false_eq_true, if_false]
    have hm := devReq_match hdq
    cases dq with
    | read => rw [hm.1]; exact ⟨_, _, _, rfl, pd3, rfl, q3, upd_same b3.out 0 _, by simpa [finish] using hl, lp3⟩
    | write => rw [hm.1]; exact ⟨_, _, _, rfl, pd3, rfl, q3, upd_same b3.out 0 _, by simpa [finish] using hl, lp3⟩
    | flush => rw [show (rqOf a 0).op = _ from hm]; exact ⟨_, _, _, rfl, pd3, rfl, q3, upd_same b3.out 0 _, by simpa [finish] using hl, lp3⟩
  simp only [hrep] at h5
  have h6 := h5.step (.exit _ 0 (by simpa using e6) (by simpa using e1) (by simpa using e3) (by simpa using e2))
  simp only [comps, kcalls, List.filterMap_cons, List.filterMap_nil, List.append_nil, upd_same, hr] at h6
  simp only [List.append_assoc, List.cons_append, List.nil_append] at h6
  refine ⟨_, n, rb, h6, ?_⟩
  exact ⟨by simp, by simpa using e1, by simpa using e2, by simpa using e3, by simpa using e4, by simpa using e5, by simp⟩

/-- A write of `seven`, a flush and a read of sector 0. -/
def askWrite : Ask := ⟨1, 0, 1, seven⟩
def askFlush : Ask := ⟨2, 0, 0, zeros 512⟩
def askRead : Ask := ⟨0, 0, 1, zeros 512⟩

theorem demo_kernel : ∃ f n n' n'' b b' b'', KRun 512 1
    ([.asked 0 0 askWrite, .completed 0 0 askWrite (some n) b] ++ [.asked 0 0 askFlush, .completed 0 0 askFlush (some n') b'] ++ [.crash] ++
      [.asked 0 0 askRead, .completed 0 0 askRead (some n'') b''])
    [.issue 0 0 (.write 0 1 fun x => sectorOf (seven.take 512) (x - 0)), .resp 0 0 true [], .issue 0 0 .flush,
      .resp 0 0 true [], .crash, .issue 0 0 (.read 0 1), .resp 0 0 true [some seven]] f := by
  obtain ⟨f1, n, b, h1, i1⟩ := kround .nil Idle.init (a := askWrite) Stack.seven_length (data := []) (by simp) (r := .write 0 1 fun x => sectorOf (seven.take 512) (x - 0)) rfl rfl
  obtain ⟨f2, n', b', h2, i2⟩ := kround h1 i1 (a := askFlush) (zeros_length 512) (data := []) (by simp) (r := .flush) rfl rfl
  have h3 := h2.step (.crash f2)
  obtain ⟨f3, n'', b'', h4, -⟩ := kround h3 Idle.init (a := askRead) (zeros_length 512) (data := [some seven]) (by simp [Stack.seven_length]) (r := .read 0 1) rfl rfl
  exact ⟨f3, n, n', n'', b, b', b'', by simpa using h4⟩

theorem seven_sector : sectorOf (seven.take 512) 0 = seven := by
  unfold sectorOf
  rw [Nat.zero_mul, List.drop_zero, List.take_take, List.take_of_length_le (by rw [Stack.seven_length]; decide)]

/-- A case of C68: a write, a flush, a power loss and a read through ublk on an encrypted volume. The last fact is what
`C68_flushed_survives` says of this run. -/
example : ∃ mv lls et em h ls f n b, Lazy.Bootable plainCfg [0] mv ∧ Stack.ORun plainCfg lls et em h ∧
    Stack.Device Crypt.toy Crypt.toy_lawful Crypt.toyKeys (fun _ => zeros 512) et ∧ Stack.Device Crypt.toy Crypt.toy_lawful Crypt.toyKeys mv em ∧
    KRun 512 1 ls (Lazy.visible lls) f ∧ ls.getLast? = some (.completed 0 0 askRead (some n) b) ∧ sectorOf b 0 = seven := by
  obtain ⟨mv, lls, et, em, h, h1, h2, -, -, h5, h6, h7⟩ := Stack.demo_stack (p := Crypt.toy) Crypt.toy_lawful Crypt.toyKeys
    (fun x => sectorOf (seven.take 512) (x - 0)) seven_sector
  obtain ⟨f, n, n', n'', b, b', b'', hf⟩ := demo_kernel
  rw [← h7] at hf
  refine ⟨mv, lls, et, em, h, _, f, n'', b'', h1, h2, h5, h6, hf, rfl, ?_⟩
  have := C68_flushed_survives (l0 := []) (l1 := []) (l2 := []) (l3 := []) (l4 := [.crash]) (l5 := []) (x := 0) h1 h2 h5 h6 hf rfl
    (show askWrite.wanted 512 = _ from rfl) (show askFlush.wanted 512 = _ from rfl) (show askRead.wanted 512 = _ from rfl)
    ⟨Nat.le_refl _, by decide⟩ ⟨Nat.le_refl _, by decide⟩
    (by intro a b q id off cnt data hm; simp at hm) (quiet_nil _) (quiet_nil _) (quiet_nil _)
    (by intro q id off cnt data hm; simp [KLab.view] at hm) (quiet_nil _) (unanswered_nil _) (by simp) (unanswered_nil _) (unanswered_nil _)
  refine this.trans ?_
  show sectorOf seven 0 = seven
  unfold sectorOf
  rw [Nat.zero_mul, List.drop_zero, List.take_of_length_le (by rw [Stack.seven_length])]

/-- A case of `C68_refused`: a request of two sectors on a device with a limit of one. -/
example : ∃ f b, KRun 512 1 [.asked 0 0 ⟨0, 0, 2, zeros 512⟩, .completed 0 0 ⟨0, 0, 2, zeros 512⟩ none b] [] f ∧
    Ask.wanted 512 ⟨0, 0, 2, zeros 512⟩ = none := by
  have h := KRun.nil.step (.arrive (maxIo := 512) (depth := 1) (KFront.init 512) 0 ⟨0, 0, 2, zeros 512⟩ 0 true rfl rfl (by decide) (zeros_length 512))
  exact ⟨_, zeros 512, by simpa [handle, finish, comps, kcalls] using h, rfl⟩

end Verif.Ublk
