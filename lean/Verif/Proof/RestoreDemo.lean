import Verif.Props.Restore
import Verif.Proof.LazyDemo
import Verif.Proof.ArchiveDemo

/-! Finished archives and volumes initialised from them, for the cases beside C62. -/

set_option maxRecDepth 8000

namespace Verif.Restore
open Verif Verif.Metadata Verif.Archive Verif.Disk Verif.Crypt

/-- An archiver over the lawful instance, without compression or encryption. -/
noncomputable def demoA (count ssc : Nat) (headers : Bytes) : Archive.Cfg :=
  { demoCfg with count := count, ssc := ssc, headers := headers }

theorem demoA_ok {count ssc : Nat} {headers : Bytes} (h1 : count ≤ 2 ^ 64) (h2 : ssc < 2 ^ 64) : (demoA count ssc headers).Ok where
  lawful := toyP_lawful
  count := h1
  ssc := h2
  level l h := by simp [demoA, demoCfg] at h
  keys k h := by simp [demoA, demoCfg] at h
  hkey := by simp [demoA, demoCfg]
  nk := by simp [demoA, demoCfg]
  nh := by simp [demoA, demoCfg]

theorem demoA_make {count ssc : Nat} {headers : Bytes} (id : Nat) {b : Bytes} (hb : b.length % 512 = 0) :
    makeObject (demoA count ssc headers) id b = .ok (if b.all (· == 0) then none else some b) := by
  unfold makeObject
  split
  · rfl
  · have h1 : compress (demoA count ssc headers).P (demoA count ssc headers).comp b = .ok b := by simp [demoA, demoCfg, compress, hb]
    have h2 : maybeEncrypt (demoA count ssc headers) id b = .ok b := by
      unfold maybeEncrypt; rw [if_neg (by omega)]; simp [demoA, demoCfg, maybeCrypt]
    rw [h1]
    simp only [h2]

theorem encEntries_length {m : List (Nat × Spec)} (h : MapInRange m) : (encEntries m).length = 41 * m.length := by
  induction m with
  | nil => rfl
  | cons e m ih =>
    obtain ⟨k, v⟩ := e
    simp only [encEntries, List.length_append, le_length, List.length_cons, encSpec_length (h _ (.head _)).2,
      ih fun x hx => h x (.tail _ hx)]
    omega

theorem entries_length (n : Nat) (m : Nat → Option Spec) : (entries n m).length ≤ n := by
  have := List.length_filterMap_le (fun i => (m i).map fun v => (i, v)) (List.range n)
  simpa [entries] using this

theorem stripes_le {a : Archive.Cfg} {st0 : Name → Option Bytes} {als : List Archive.Lab} {ast : Archive.St} {src : Src}
    (hf : Finished a st0 als ast src) : src.stripes ≤ a.count := by
  have ho := open_done hf.ok (run_inv hf.run) hf.done hf.len
  rw [hf.opened, Except.ok.injEq] at ho
  subst ho
  have : ∀ (l : List Nat) (z n : Nat), z ≤ n → (∀ x ∈ l, x ≤ n) → l.foldl max z ≤ n := by
    intro l
    induction l with
    | nil => intro z n h _; exact h
    | cons x l ih => intro z n h h'; exact ih _ _ (Nat.max_le.2 ⟨h, h' x (.head _)⟩) fun y hy => h' y (.tail _ hy)
  refine this _ _ _ (Nat.zero_le _) ?_
  intro x hx
  simp only [entries, List.mem_map, List.mem_filterMap, List.mem_range, Option.map_eq_some_iff] at hx
  obtain ⟨kv, ⟨i, hi, v, -, rfl⟩, rfl⟩ := hx
  exact hi

/-- For any contents with at most one kind of stripe that is not zeros, a finished archive. -/
theorem demo_finished {count ssc : Nat} {headers b : Bytes} {bufs : Nat → Bytes} (hc : count ≤ headers.length) (h1 : 41 * count < 2 ^ 64)
    (h2 : ssc < 2 ^ 64) (hl : ∀ id, (bufs id).length = ssc * 512) (hb : ∀ id, bufs id = b ∨ bufs id = zeros (ssc * 512)) :
    ∃ als ast src, Finished (demoA count ssc headers) (fun _ => none) als ast src ∧
      ∀ id ok buf, Lab.fetched id ok buf ∈ als → buf = bufs id := by
  have hok : (demoA count ssc headers).Ok := demoA_ok (by omega) h2
  have hmod : ∀ id, (bufs id).length % 512 = 0 := fun id => by rw [hl]; omega
  obtain ⟨ls, s, r1, r2, r3, r4⟩ := C22_can_finish (c := demoA count ssc headers) (bufs := bufs) hl hc (by simp [demoA, demoCfg])
    (fun id _ => ⟨_, demoA_make id (hmod id)⟩) (fun m => ⟨_, rfl⟩) ⟨_, rfl⟩ (fun _ => none)
  have hi := run_inv r1
  have hcomp := hi.complete (.inr (.inr (.inl r2)))
  have hlen : ((demoA count ssc headers).P.encMap (entries (demoA count ssc headers).count s.hashes)).length < 2 ^ 64 := by
    show (encEntries _).length < _
    rw [encEntries_length (entries_range hok hcomp.hashed)]
    have := entries_length count s.hashes
    show 41 * (entries count s.hashes).length < _
    omega
  refine ⟨ls, s, _, ⟨hok, r1, r2, hlen, ?_, open_done hok hi r2 hlen⟩, fun id ok buf h => (r3 id ok buf h).2⟩
  have hm : ∀ o, Made (demoA count ssc headers) s o → o = b := by
    rintro o ⟨id, buf, g1, g2⟩
    rw [got_iff r1] at g1
    obtain ⟨-, rfl⟩ := r3 _ _ _ g1
    rw [demoA_make id (hmod id)] at g2
    rcases hb id with hb | hb
    · split at g2 <;> simp_all
    · rw [hb, if_pos (by simp [zeros])] at g2; simp at g2
  exact fun o o' h h' _ => by rw [hm o h, hm o' h']

/-- A volume of `n` stripes initialised from an archive. -/
noncomputable def newVol (P : Prims) (src : Src) (store : Name → Option Bytes) (shift : UInt8) (n : Nat) : Lazy.Cfg Bytes :=
  { ss := 2 ^ shift.toNat, n := n, tsec := n * 2 ^ shift.toNat, msec := divCeil (metadataSize (Meta.newFromSource shift n src.hasStripe)) 512,
    hs := fun k => Lazy.flag ((Meta.newFromSource shift n src.hasStripe).headers.getD k 0) HAS_SOURCE,
    src := archiveSrc P src store (2 ^ shift.toNat), srcHas := fun _ => true,
    srcStripes := divCeil (src.stripes * src.ssc) (2 ^ shift.toNat), image := false, track := false, autofetch := true }

theorem newVol_restored {P : Prims} {src : Src} {store : Name → Option Bytes} {shift : UInt8} {n : Nat} (hs : shift.toNat ≤ 17)
    (hn : n < 2 ^ 32) (hc : src.stripes * src.ssc ≤ n * 2 ^ shift.toNat) :
    ∃ mv, Restored P src store shift (newVol P src store shift n) mv := by
  have hp : 0 < 2 ^ shift.toNat := Nat.pow_pos (by decide)
  have hsv : Saveable (Meta.newFromSource shift n src.hasStripe) := ⟨rfl, rfl, rfl, hs, by simpa [Meta.newFromSource] using hn⟩
  obtain ⟨mv, hmv⟩ := Remote.saved_bootable (c := newVol P src store shift n) hsv (by
      show _ ≤ divCeil _ 512 * 512
      unfold divCeil
      omega) hp (by simp [newVol, Meta.newFromSource]) (fun _ => rfl) (by
      show divCeil _ _ ≤ n
      unfold divCeil
      rw [Nat.div_le_iff_le_mul_add_pred hp]
      rw [Nat.mul_comm n] at hc
      omega)
  exact ⟨mv, rfl, rfl, rfl, hmv⟩

end Verif.Restore
