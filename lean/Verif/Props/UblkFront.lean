import Verif.Proof.UblkFront
import Verif.Props.Stack

/-! # C68: the disk the kernel sees through ublk

`KRun` puts one handler per queue on whatever is below; the handlers exchange events with it. `KLab.view` reads what happens at the
queues as disk requests and answers, from the io descriptors and the buffers of the tags alone. -/

set_option maxRecDepth 8000

namespace Verif.Ublk
open Verif Verif.Metadata Verif.Disk Verif.Vhost

variable {maxIo depth : Nat} {f : KFront} {ls : List KLab} {es : List (Ev Bytes)}

/-- **C68** If what the handlers are connected to behaves as a plain disk, then so does what the kernel sees: io descriptors as they are
handed over, results, and the contents of the buffer when a read is completed. Any number of queues and tags, batches of any size,
requests that wait in the handler while others are served, completions handled late, power losses. -/
theorem C68_kernel_view {v : Nat → Bytes} {d : Disk Bytes} (h : KRun maxIo depth ls es f) (hd : Disk.Run (Dev.fresh v) es d) :
    ∃ u, Disk.Run (Dev.fresh v) (ls.flatMap (KLab.view maxIo)) u := by
  obtain ⟨u, t, h1, -⟩ := front_sim h hd
  exact ⟨u, h1⟩

theorem step_refused {f' : KFront} {ls' : List KLab} {es' : List (Ev Bytes)} {d u t : Disk Bytes} (hS : Sim maxIo f d u t)
    (h : KStep maxIo depth f ls' es' f') {q tag : Nat} {a : Ask} {res : Option Nat} {buf : Bytes} (hm : KLab.completed q tag a res buf ∈ ls')
    (hw : a.wanted maxIo = none) : res = none := by
  cases h with
  | crash => simp at hm
  | deliver => simp at hm
  | submit => simp at hm
  | exit => simp at hm
  | arrive q a tag last =>
    unfold handle at hm
    simp only [] at hm
    split at hm
    · simp only [finish, comps, List.filterMap_cons, List.filterMap_nil, List.mem_cons, reduceCtorEq, false_or, List.not_mem_nil, or_false,
        KLab.completed.injEq] at hm
      exact hm.2.2.2.1
    · simp [comps] at hm
  | enqueue q rq rest hl hp =>
    unfold enqueue at hm
    split at hm
    · simp only [finish, comps, List.filterMap_cons, List.filterMap_nil, List.mem_cons, List.not_mem_nil, or_false,
        KLab.completed.injEq] at hm
      exact hm.2.2.2.1
    · simp [comps] at hm
  | report q id ok data bf pre post dq hb hl hp hq hc =>
    obtain ⟨⟨es, hi⟩, -, -, qc, -⟩ := hS.qs q
    have hmem : (id, dq) ∈ (f.qs q).chan := by rw [hc]; simp
    obtain ⟨rq, hin, -⟩ := hi.chan1 id dq hmem
    have hwant := qc id dq hmem
    unfold report at hm
    simp only [hin, finish, comps, List.filterMap_cons, List.filterMap_nil, List.mem_cons, List.not_mem_nil, or_false,
        KLab.completed.injEq] at hm
    obtain ⟨-, -, rfl, -⟩ := hm
    rw [hwant] at hw; cases hw

/-- **C68**, requests that ask for nothing the disk can do (an unknown operation, a transfer above the limit): they are completed
with an error. -/
theorem C68_refused {v : Nat → Bytes} {d : Disk Bytes} (h : KRun maxIo depth ls es f) (hd : Disk.Run (Dev.fresh v) es d)
    {q tag : Nat} {a : Ask} {res : Option Nat} {buf : Bytes} (hm : KLab.completed q tag a res buf ∈ ls) (hw : a.wanted maxIo = none) :
    res = none := by
  induction h generalizing d with
  | nil => cases hm
  | step h hs ih =>
    obtain ⟨m, h1, h2⟩ := hd.split _ _ rfl
    rcases List.mem_append.1 hm with hm | hm
    · exact ih h1 hm
    · obtain ⟨u, t, -, hS⟩ := front_sim h h1
      exact step_refused hS hs hm hw

open Verif.Stack Verif.Lazy Verif.Crypt in
/-- **C68** with the volume below: ublk queues, lazily fetched disk, encryption and engines, each run on its own and connected by
what they exchange. The kernel sees a plain disk that initially held the image on the stripes still to be fetched and the
(decrypted) local contents elsewhere. -/
theorem C68_stack {p : Xts} {hp : p.Lawful} {k : Keys} {c : Cfg Bytes} {hdrs : Bytes} {tv mv : Nat → Bytes} {lls : List (Lab Bytes)}
    {et em : List (Ev Bytes)} {hst : Host Bytes} (hb : Bootable c hdrs mv) (hr : ORun c lls et em hst)
    (ht : Device p hp k tv et) (hm : Device p hp k mv em) (h : KRun maxIo depth ls (visible lls) f) :
    ∃ g u, Disk.Run (Dev.fresh (preloadWith c g hdrs tv)) (ls.flatMap (KLab.view maxIo)) u := by
  obtain ⟨g, d, hd⟩ := C65_stack hb hr ht hm
  exact ⟨g, C68_kernel_view h hd⟩

theorem wanted_write {a : Ask} {off cnt : Nat} {data : Nat → Bytes} (h : a.wanted maxIo = some (.write off cnt data)) :
    off = a.off ∧ cnt = a.cnt ∧ ∀ x, data x = sectorOf (a.data.take (a.cnt * 512)) (x - a.off) := by
  unfold Ask.wanted at h
  split at h
  · cases h
  · split at h
    · cases h
    · split at h
      · simp only [Option.some.injEq, Req.write.injEq] at h
        obtain ⟨rfl, rfl, rfl⟩ := h
        exact ⟨rfl, rfl, fun _ => rfl⟩
      · split at h <;> cases h

theorem sectorOf_take {b : Bytes} {n j : Nat} (h : j < n) : sectorOf (b.take (n * 512)) j = sectorOf b j := by
  unfold sectorOf
  rw [List.drop_take, List.take_take, Nat.min_eq_left]
  have : (n - j) * 512 = n * 512 - j * 512 := Nat.sub_mul ..
  have : 1 ≤ n - j := by omega
  omega

open Verif.Stack Verif.Lazy Verif.Crypt in
/-- **C68**, read off the plain disk: a write completed without error and then a flush completed without error; whatever happens
afterwards, power losses included, a read of one of its sectors completed without error finds in its buffer the bytes that were in the buffer of
the write, as long as nobody asked for another write of that sector. -/
theorem C68_flushed_survives {p : Xts} {hp : p.Lawful} {k : Keys} {c : Cfg Bytes} {hdrs : Bytes} {tv mv : Nat → Bytes} {lls : List (Lab Bytes)}
    {et em : List (Ev Bytes)} {hst : Host Bytes} (hb : Bootable c hdrs mv) (hr : ORun c lls et em hst)
    (ht : Device p hp k tv et) (hm : Device p hp k mv em) (h : KRun maxIo depth ls (visible lls) f)
    {l0 l1 l2 l3 l4 l5 : List KLab} {q w qf fl q' r off cnt off' cnt' x n nf n' : Nat} {data : Nat → Bytes} {a af ar : Ask} {b bf br : Bytes}
    (hl : ls = (l0 ++ .asked q w a :: l1 ++ [.completed q w a (some n) b]) ++ l2 ++
      (.asked qf fl af :: l3 ++ [.completed qf fl af (some nf) bf]) ++ l4 ++
      (.asked q' r ar :: l5 ++ [.completed q' r ar (some n') br]))
    (hw : a.wanted maxIo = some (.write off cnt data)) (hf : af.wanted maxIo = some .flush) (hrd : ar.wanted maxIo = some (.read off' cnt'))
    (hx : covers off cnt x) (hx' : covers off' cnt' x)
    (h0 : settledWrites (l0.flatMap (KLab.view maxIo)) x) (h1 : quiet (l1.flatMap (KLab.view maxIo)) x) (h2 : quiet (l2.flatMap (KLab.view maxIo)) x)
    (h3 : quiet (l3.flatMap (KLab.view maxIo)) x) (h4 : quiet (l4.flatMap (KLab.view maxIo)) x) (h5 : quiet (l5.flatMap (KLab.view maxIo)) x)
    (a1 : unanswered (q, w) (l1.flatMap (KLab.view maxIo))) (a2 : ∀ e ∈ l2.flatMap (KLab.view maxIo), e ≠ .crash)
    (a3 : unanswered (qf, fl) (l3.flatMap (KLab.view maxIo))) (a5 : unanswered (q', r) (l5.flatMap (KLab.view maxIo))) :
    sectorOf br (x - off') = sectorOf a.data (x - off) := by
  obtain ⟨g, u, hu⟩ := C68_stack hb hr ht hm h
  have hv : ls.flatMap (KLab.view maxIo) = (l0.flatMap (KLab.view maxIo) ++ Ev.issue q w (.write off cnt data) :: l1.flatMap (KLab.view maxIo) ++ [Ev.resp q w true []]) ++
      l2.flatMap (KLab.view maxIo) ++ (Ev.issue qf fl .flush :: l3.flatMap (KLab.view maxIo) ++ [Ev.resp qf fl true []]) ++ l4.flatMap (KLab.view maxIo) ++
      (Ev.issue q' r (.read off' cnt') :: l5.flatMap (KLab.view maxIo) ++ [Ev.resp q' r true (kfound br (.read off' cnt') true)]) := by
    rw [hl]
    simp only [List.flatMap_append, List.flatMap_cons, List.flatMap_nil, KLab.view, hw, hf, hrd, List.append_nil, kfound,
      List.nil_append, List.cons_append, List.append_assoc, Option.isSome_some]
  rw [hv] at hu
  obtain ⟨m4, g1, g2⟩ := hu.split _ _ rfl
  obtain ⟨m3, g3, g4⟩ := g1.split _ _ rfl
  obtain ⟨m2, g5, g6⟩ := g3.split _ _ rfl
  obtain ⟨m1, g7, g8⟩ := g5.split _ _ rfl
  have r1 := Rest.write g7 rfl h0 h1 a1 hx
  have r2 := (r1.run g8 h2 a2).flush g6 h3 a3
  have r3 := (r2.run g4 h4).toRest.read g2 h5 a5 hx'
  have hlt : x - off' < cnt' := by have := hx'.1; have := hx'.2; omega
  simp only [kfound, List.getElem?_map, List.getElem?_range hlt, Option.map_some, Option.some.injEq] at r3
  obtain ⟨rfl, rfl, e⟩ := wanted_write hw
  rw [r3, e, sectorOf_take (by have := hx.1; have := hx.2; omega)]

end Verif.Ublk
