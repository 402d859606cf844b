import Verif.Proof.Front
import Verif.Props.Stack

/-! # C67: the disk a guest driver sees on its virtqueues

`FRun` puts one backend thread per queue on a common guest memory; the threads exchange events with whatever is below them.
`FLab.view` reads what happens at the queues as disk requests and answers, from guest memory alone. -/

set_option maxRecDepth 8000

namespace Verif.Vhost
open Verif Verif.Metadata Verif.Disk

variable {dev : Bytes} {n bs : Nat} {mem : GMem} {f : Front} {ls : List FLab} {es : List (Ev Bytes)}

/-- **C67** If what the threads are connected to behaves as a plain disk, then so does what the guest sees on its queues: chains
as they are taken from the queues, status bytes, and the contents of guest memory when a read is returned. Any number of
queues, slots reused in any order, guest memory changed by the guest and by other requests at any time, completions handled
late, buffers that turn out not to be mapped, power losses. Chains whose buffers overlap or exceed 4 GiB are excluded. -/
theorem C67_guest_view {v : Nat → Bytes} {d : Disk Bytes} (hbs : bs < 2 ^ 32) (h : FRun dev n bs mem ls es f)
    (hs : ∀ q k m ds, FLab.popped q k m ds ∈ ls → Sane ds) (hd : Disk.Run (Dev.fresh v) es d) :
    ∃ u, Disk.Run (Dev.fresh v) (ls.flatMap FLab.view) u := by
  obtain ⟨u, t, h1, -⟩ := front_sim hbs h hs hd
  exact ⟨u, h1⟩

/-- **C67**, chains that ask for no disk request (malformed, wrong size, unmapped data, unknown type, device id): they never
reach the volume, and are returned in the step that took them. -/
theorem C67_other_chains (hbs : bs < 2 ^ 32) (h : FRun dev n bs mem ls es f) (hs : ∀ q k m ds, FLab.popped q k m ds ∈ ls → Sane ds)
    {d : Disk Bytes} {v : Nat → Bytes} (hd : Disk.Run (Dev.fresh v) es d)
    {q head : Nat} (hq : f.first ≤ q) {ds : List Desc} (ht : total (dataOf ds) < 2 ^ 32) (hw : wanted f.mem ds = none) {v' : Vq} {es' : List VEv}
    (hp : processChain dev (f.at q) head ds = .ok (v', es')) :
    calls q es' = [] ∧ ∃ st, es' = [.returned (f.qs q).popped head st] := by
  obtain ⟨u, t, -, hS⟩ := front_sim hbs h hs hd
  obtain ⟨es0, hi⟩ := hS.inv q hq
  obtain ⟨-, -, -, hE⟩ := chain_spec hp hi.small
  generalize hm0 : (f.at q).mem = m0 at hE
  have e : m0 = f.mem := hm0.symm
  subst e
  cases hE with
  | bad => exact ⟨rfl, _, rfl⟩
  | done => exact ⟨rfl, _, rfl⟩
  | hold r id dq s hp' _ _ _ _ hq =>
    rw [wanted_issued hp' hq ht] at hw; cases hw

open Verif.Stack Verif.Lazy Verif.Crypt in
/-- **C67** with the volume below: virtqueues, lazily fetched disk, encryption and engines, each run on its own and connected by
what they exchange. The guest sees a plain disk that initially held the image on the stripes still to be fetched and the
(decrypted) local contents elsewhere. -/
theorem C67_stack {p : Xts} {hp : p.Lawful} {k : Keys} {c : Cfg Bytes} {hdrs : Bytes} {tv mv : Nat → Bytes} {lls : List (Lab Bytes)}
    {et em : List (Ev Bytes)} {hst : Host Bytes} (hb : Bootable c hdrs mv) (hr : ORun c lls et em hst)
    (ht : Device p hp k tv et) (hm : Device p hp k mv em) (hbs : bs < 2 ^ 32) (h : FRun dev n bs mem ls (visible lls) f)
    (hs : ∀ q k m ds, FLab.popped q k m ds ∈ ls → Sane ds) :
    ∃ g u, Disk.Run (Dev.fresh (preloadWith c g hdrs tv)) (ls.flatMap FLab.view) u := by
  obtain ⟨g, d, hd⟩ := C65_stack hb hr ht hm
  exact ⟨g, C67_guest_view hbs h hs hd⟩

theorem wanted_write {m : GMem} {ds : List Desc} {off cnt : Nat} {data : Nat → Bytes} (h : wanted m ds = some (.write off cnt data)) (x : Nat) :
    data x = sectorOf ((places (dataOf ds)).map m.bytes) (x - off) := by
  unfold wanted at h
  split at h
  · cases h
  · split at h
    · cases h
    · split at h
      · split at h <;> cases h
      · split at h
        · split at h
          · simp only [Option.some.injEq, Req.write.injEq] at h
            obtain ⟨rfl, -, rfl⟩ := h
            rfl
          · cases h
        · split at h <;> cases h

open Verif.Stack Verif.Lazy Verif.Crypt in
/-- **C67**, read off the plain disk: the guest's driver puts a sector in its buffers and has the write returned with status 0, then
a flush returned with status 0; whatever happens afterwards, power losses included, a read of that sector returned with status 0
finds in its buffers the bytes the write's buffers held when it was taken, as long as nobody asked for another write of it. -/
theorem C67_flushed_survives {p : Xts} {hp : p.Lawful} {k : Keys} {c : Cfg Bytes} {hdrs : Bytes} {tv mv : Nat → Bytes} {lls : List (Lab Bytes)}
    {et em : List (Ev Bytes)} {hst : Host Bytes} (hb : Bootable c hdrs mv) (hr : ORun c lls et em hst)
    (ht : Device p hp k tv et) (hm : Device p hp k mv em) (hbs : bs < 2 ^ 32) (h : FRun dev n bs mem ls (visible lls) f)
    (hs : ∀ q k m ds, FLab.popped q k m ds ∈ ls → Sane ds)
    {l0 l1 l2 l3 l4 l5 : List FLab} {q w qf fl q' r off cnt off' cnt' x : Nat} {data : Nat → Bytes} {m m' mf mf' mr mr' : GMem}
    {ds dsf dsr : List Desc}
    (hl : ls = (l0 ++ .popped q w m ds :: l1 ++ [.returned q w m ds (some 0) m']) ++ l2 ++
      (.popped qf fl mf dsf :: l3 ++ [.returned qf fl mf dsf (some 0) mf']) ++ l4 ++
      (.popped q' r mr dsr :: l5 ++ [.returned q' r mr dsr (some 0) mr']))
    (hw : wanted m ds = some (.write off cnt data)) (hf : wanted mf dsf = some .flush) (hrd : wanted mr dsr = some (.read off' cnt'))
    (hx : covers off cnt x) (hx' : covers off' cnt' x)
    (h0 : settledWrites (l0.flatMap FLab.view) x) (h1 : quiet (l1.flatMap FLab.view) x) (h2 : quiet (l2.flatMap FLab.view) x)
    (h3 : quiet (l3.flatMap FLab.view) x) (h4 : quiet (l4.flatMap FLab.view) x) (h5 : quiet (l5.flatMap FLab.view) x)
    (a1 : unanswered (q, w) (l1.flatMap FLab.view)) (a2 : ∀ e ∈ l2.flatMap FLab.view, e ≠ .crash)
    (a3 : unanswered (qf, fl) (l3.flatMap FLab.view)) (a5 : unanswered (q', r) (l5.flatMap FLab.view)) :
    sectorOf ((places (dataOf dsr)).map mr'.bytes) (x - off') = sectorOf ((places (dataOf ds)).map m.bytes) (x - off) := by
  obtain ⟨g, u, hu⟩ := C67_stack hb hr ht hm hbs h hs
  have hv : ls.flatMap FLab.view = (l0.flatMap FLab.view ++ Ev.issue q w (.write off cnt data) :: l1.flatMap FLab.view ++ [Ev.resp q w true []]) ++
      l2.flatMap FLab.view ++ (Ev.issue qf fl .flush :: l3.flatMap FLab.view ++ [Ev.resp qf fl true []]) ++ l4.flatMap FLab.view ++
      (Ev.issue q' r (.read off' cnt') :: l5.flatMap FLab.view ++ [Ev.resp q' r true (found mr' dsr (.read off' cnt') true)]) := by
    rw [hl]
    have d0 : decide (some (0 : UInt8) = some S_OK) = true := by decide
    simp only [d0, List.flatMap_append, List.flatMap_cons, List.flatMap_nil, FLab.view, hw, hf, hrd, List.append_nil, found,
      List.nil_append, List.cons_append, List.append_assoc]
  rw [hv] at hu
  obtain ⟨m4, g1, g2⟩ := hu.split _ _ rfl
  obtain ⟨m3, g3, g4⟩ := g1.split _ _ rfl
  obtain ⟨m2, g5, g6⟩ := g3.split _ _ rfl
  obtain ⟨m1, g7, g8⟩ := g5.split _ _ rfl
  have r1 := Rest.write g7 rfl h0 h1 a1 hx
  have r2 := (r1.run g8 h2 a2).flush g6 h3 a3
  have r3 := (r2.run g4 h4).toRest.read g2 h5 a5 hx'
  have hlt : x - off' < cnt' := by have := hx'.1; have := hx'.2; omega
  simp only [found, List.getElem?_map, List.getElem?_range hlt, Option.map_some, Option.some.injEq] at r3
  rw [r3, wanted_write hw]

end Verif.Vhost
