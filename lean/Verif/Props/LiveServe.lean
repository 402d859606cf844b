import Verif.Proof.LiveServe
import Verif.Props.LiveArchiveLimits

/-! # C86: a stripe server on a volume in use

`m0` is the metadata of the volume when it was first started, from which its stripe size is taken. `Serving c s0 log s h`: the server was started when the running volume was in state `s0`; `log` has what the backend did since and what passed
between the server and its clients. `Allowed` and `guest` are in Spec/LiveServe, `Held` in Spec/LiveArchive. -/

set_option maxRecDepth 8000

namespace Verif.LiveServe
open Verif Verif.Metadata Verif.Disk Verif.Lazy Verif.LiveArchive

variable {c : Cfg Bytes} {hdrs : Bytes} {tv : Nat → Bytes} {mv : Nat → Bytes} {b0 : Nat → Nat → Bytes} {s0 s : Sys Bytes}
  {ls0 : List (Lab Bytes)} {log l1 l2 l3 : List SLab} {h : Host} {q k : Nat} {b : Bytes} {m0 : Meta}

/-- **C86** Whatever stripe a client asks for, and whatever the backend does meanwhile: an answer with data shows in each sector what the
volume held there at some moment since the server was started; "no data" is said only of a stripe that had its original content at such a
moment, "invalid" only of a stripe the volume does not have. -/
theorem C86_answers (hb : Bootable c hdrs mv) (h0 : Run c (Sys.boot c hdrs tv mv b0) ls0 s0) (hs : Serving c s0 log s h)
    (hz : fromBytes (devBytes c.msec mv) = .ok m0) (hss : stripeSectorCount m0 = c.ss) (he : log = l1 ++ .ask q k :: (l2 ++ .answer q b :: l3)) (hf : ∀ e ∈ l2, foreign q e) :
    Allowed c.n c.ss (fun x => c.good x = true ∧ x < c.tsec) (Held (fun g => preloadWith c g hdrs tv) (visible ls0) (guest (l1 ++ l2)))
      (preload c hdrs tv) k b :=
  ((sinv hb h0 (serving_size hb h0 hs hz hss) hs).done q k l1 l2 b l3 he hf).1

/-- **C86** A stripe that was on the disk when the server was started, if answered with data, is answered with what the volume held between the
request and the answer. Missing from the property: stripes fetched later, and "no data" (false, `C86_false_current`). -/
theorem C86_current_partial (hb : Bootable c hdrs mv) (h0 : Run c (Sys.boot c hdrs tv mv b0) ls0 s0) (hs : Serving c s0 log s h)
    (hz : fromBytes (devBytes c.msec mv) = .ok m0) (hss : stripeSectorCount m0 = c.ss) (he : log = l1 ++ .ask q k :: (l2 ++ .answer q b :: l3)) (hf : ∀ e ∈ l2, foreign q e)
    (hk : k < c.n) (hl : s0.sh.isLocal k = true) (hd : b ≠ [2]) :
    Allowed c.n c.ss (fun x => c.good x = true ∧ x < c.tsec) (Held (fun g => preloadWith c g hdrs tv) (visible ls0 ++ guest l1) (guest l2))
      (preload c hdrs tv) k b := by
  obtain ⟨f1, f2, f3, f4⟩ := (sinv hb h0 (serving_size hb h0 hs hz hss) hs).done q k l1 l2 b l3 he hf
  obtain ⟨ls, t, m, hB, hm, hsv, hv⟩ := hs.beside
  obtain ⟨mv', hI⟩ := inv hb h0 hB
  obtain ⟨hlen, hseen⟩ := hI.md m hm
  have hg : m.headers[k]? = some (m.headers.getD k 0) := by
    rw [List.getD_eq_getElem?_getD, List.getElem?_eq_getElem (by omega)]; rfl
  cases hw : way h.md k with
  | none =>
    rcases f3 hw with rfl | rfl | rfl
    · exact .error
    · cases f1 with
      | invalid h => omega
    · exact absurd rfl hd
  | some w =>
    cases w with
    | false => exact f2 hw
    | true =>
      exfalso
      rw [hsv] at hw
      obtain ⟨h1, h2⟩ := (way_cases hg).1 hw
      have hn := now hb h0 hB
      simp only [Shared.isLocal, Bool.or_eq_true, decide_eq_true_eq] at hl
      rcases hl with hl | hl
      · rw [(hseen k hk).fetched hl] at h2; cases h2
      · have h0' := now hb h0 (.start (c := c) (s0 := s0))
        have := (h0'.nosrc k).1 hl
        rw [(hseen k hk).src, this] at h1; cases h1

/-- **C86** A write acknowledged before the server was started and not overwritten until the answer is in the answer, unless the answer
is an error. -/
theorem C86_acknowledged {e0 e1 e2 : List (Ev Bytes)} {q' w off cnt x : Nat} {data : Nat → Bytes} {o : List (Option Bytes)}
    (hb : Bootable c hdrs mv) (h0 : Run c (Sys.boot c hdrs tv mv b0) ls0 s0) (hs : Serving c s0 log s h)
    (hz : fromBytes (devBytes c.msec mv) = .ok m0) (hss : stripeSectorCount m0 = c.ss) (he : log = l1 ++ .ask q k :: (l2 ++ .answer q b :: l3)) (hf : ∀ e ∈ l2, foreign q e)
    (hv : visible ls0 = (e0 ++ Ev.issue q' w (.write off cnt data) :: e1 ++ [Ev.resp q' w true o]) ++ e2)
    (hc : covers off cnt x) (g0 : settledWrites e0 x) (g1 : quiet e1 x) (g2 : quiet e2 x) (g3 : quiet (guest (l1 ++ l2)) x)
    (o1 : unanswered (q', w) e1) (o2 : ∀ e ∈ e2, e ≠ .crash) (hx : x < c.tsec) (hg : c.good x = true) (hk : x / c.ss = k) (hn : k < c.n) :
    b = [0xff] ∨ ∃ d, b = [0] ++ le 8 (c.ss * 512) ++ d ∧ d.length = c.ss * 512 ∧ slice d (x % c.ss * 512) 512 = data x := by
  obtain ⟨f1, f2, f3, f4⟩ := (sinv hb h0 (serving_size hb h0 hs hz hss) hs).done q k l1 l2 b l3 he hf
  obtain ⟨ls, t, m, hB, hm, hsv, hvis⟩ := hs.beside
  have hdom : c.dom x := ⟨hg, hx⟩
  have hmod : k * c.ss + x % c.ss = x := by rw [← hk, Nat.mul_comm]; exact Nat.div_add_mod x c.ss
  have hno : ∀ e ∈ guest (l1 ++ l2), e ≠ .crash := by
    intro e he' hce
    subst hce
    apply hB.no_crash
    rw [hvis, he, guest_append]
    rw [guest_append] at he'
    rcases List.mem_append.mp he' with he' | he'
    · exact List.mem_append_left _ he'
    · refine List.mem_append_right _ ?_
      show Ev.crash ∈ guest (l2 ++ .answer q b :: l3)
      rw [guest_append]
      exact List.mem_append_left _ he'
  cases f1 with
  | error => exact .inl rfl
  | invalid h => omega
  | data h d hl hd =>
    refine .inr ⟨d, rfl, hl, ?_⟩
    have := hd (x % c.ss) (Nat.mod_lt _ hb.ss) (by rw [hmod]; exact hdom)
    rw [hmod, hv] at this
    exact this.written hc g0 g1 g2 g3 o1 o2 hno
  | noData h ho =>
    exfalso
    obtain ⟨mv', hI⟩ := inv hb h0 hB
    obtain ⟨hlen, hseen⟩ := hI.md m hm
    have hgm : m.headers[k]? = some (m.headers.getD k 0) := by
      rw [List.getD_eq_getElem?_getD, List.getElem?_eq_getElem (by omega)]; rfl
    have hwn := f4 rfl
    rw [hsv] at hwn
    obtain ⟨h1, h2⟩ := (way_cases hgm).2.2 hwn
    obtain ⟨hw, -⟩ := acked_marked h1 hb h0 hv o1 hc
    rw [hk] at hw
    rw [(hseen k hn).written hw] at h2; cases h2

/-- **C86** A sector that is never written is answered with its original content, unless the answer is an error, or "no data" of a volume with
written tracking. -/
theorem C86_unwritten {x : Nat} (hb : Bootable c hdrs mv) (h0 : Run c (Sys.boot c hdrs tv mv b0) ls0 s0) (hs : Serving c s0 log s h)
    (hz : fromBytes (devBytes c.msec mv) = .ok m0) (hss : stripeSectorCount m0 = c.ss)
    (he : log = l1 ++ .ask q k :: (l2 ++ .answer q b :: l3)) (hf : ∀ e ∈ l2, foreign q e)
    (g0 : quiet (visible ls0) x) (g1 : quiet (guest (l1 ++ l2)) x) (hx : x < c.tsec) (hg : c.good x = true) (hk : x / c.ss = k) (hn : k < c.n) :
    b = [0xff] ∨ (b = [2] ∧ c.track = true) ∨
      ∃ d, b = [0] ++ le 8 (c.ss * 512) ++ d ∧ d.length = c.ss * 512 ∧ slice d (x % c.ss * 512) 512 = preload c hdrs tv x := by
  obtain ⟨f1, f2, f3, f4⟩ := (sinv hb h0 (serving_size hb h0 hs hz hss) hs).done q k l1 l2 b l3 he hf
  have hmod : k * c.ss + x % c.ss = x := by rw [← hk, Nat.mul_comm]; exact Nat.div_add_mod x c.ss
  cases f1 with
  | error => exact .inl rfl
  | invalid h => omega
  | data h d hl hd =>
    refine .inr (.inr ⟨d, rfl, hl, ?_⟩)
    have := hd (x % c.ss) (Nat.mod_lt _ hb.ss) (by rw [hmod]; exact ⟨hg, hx⟩)
    rw [hmod] at this
    obtain ⟨g, hv⟩ := this.unwritten g0 g1
    rw [hv]
    exact preloadWith_good hb g hg
  | noData h ho =>
    obtain ⟨ls, t, m, hB, hm, hsv, hvis⟩ := hs.beside
    obtain ⟨mv', hI⟩ := inv hb h0 hB
    have hgm : m.headers[k]? = some (m.headers.getD k 0) := by
      rw [List.getD_eq_getElem?_getD, List.getElem?_eq_getElem (by have := (hI.md m hm).1; omega)]; rfl
    have hwn := f4 rfl
    rw [hsv] at hwn
    exact .inr (.inl ⟨rfl, ((way_cases hgm).2.2 hwn).1⟩)

end Verif.LiveServe
