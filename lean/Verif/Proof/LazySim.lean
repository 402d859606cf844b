import Verif.Proof.LazyBoot

/-! Simulation relation between the lazily fetched disk and the plain disk. -/

set_option maxRecDepth 8000

namespace Verif.Lazy
open Verif Verif.Metadata Verif.Disk

variable {D : Type}

/-- Sectors with a defined preloaded content. -/
def Cfg.dom (c : Cfg D) (x : Nat) : Prop := c.good x = true ∧ x < c.tsec

/-- Number of places where request `id` of queue `q` is pending. -/
def locs (s : Sys D) (q id : Nat) : Nat :=
  (s.ch q).queue.countP (fun r => decide (r.id = id)) + (s.ch q).finished.countP (fun p => decide (p.1 = id)) +
  (s.t.kinds (.guest q id)).isSome.toNat + ((s.ch q).img id).isSome.toNat

theorem locs_zero {s : Sys D} {q id : Nat} : locs s q id = 0 ↔ s.idFree q id := by
  unfold locs Sys.idFree
  simp only [Nat.add_eq_zero_iff, List.countP_eq_zero, decide_eq_true_eq]
  constructor
  · rintro ⟨⟨⟨h1, h2⟩, h3⟩, h4⟩
    refine ⟨?_, ?_, h1, h2⟩
    · cases hk : s.t.kinds (.guest q id) with
      | none => exact kinds_none.mp hk
      | some _ => simp [hk] at h3
    · cases hk : (s.ch q).img id with
      | none => rfl
      | some _ => simp [hk] at h4
  · rintro ⟨h1, h2, h3, h4⟩
    refine ⟨⟨⟨h3, h4⟩, ?_⟩, ?_⟩
    · simp [kinds_none.mpr h1]
    · simp [h2]

/-- The request as it looks in the plain disk before any sector has moved. -/
def QReq.op (r : QReq D) : Op D :=
  match r.out with
  | none => .read r.off r.cnt fun _ => none
  | some data => .write r.off r.cnt data fun _ => false

/-- The data device holds the content the guest is to see: the stripe is local, or it has been copied and flushed and the
image covers the sector. -/
def ready (c : Cfg D) (s : Sys D) (x : Nat) : Prop :=
  s.sh.isLocal (x / c.ss) = true ∨ (c.src x ≠ none ∧ s.fe.states (x / c.ss) = some .fetched)

theorem ready.settled {c : Cfg D} {s : Sys D} {x : Nat} (h : ready c s x) : settled s (x / c.ss) :=
  h.imp_right fun h => h.2

theorem ready.of_eq {c : Cfg D} {s s' : Sys D} (hsh : s'.sh = s.sh) (hfe : s'.fe = s.fe) (x : Nat) : ready c s' x ↔ ready c s x := by
  unfold ready; rw [hsh, hfe]

/-- A guest request at the data device and its counterpart in the plain disk. -/
def GuestOp (c : Cfg D) (s : Sys D) (a : Disk D) (o : Nat × Nat) : Op D → Prop
  | .flush snapT => ∃ snapA, a.ops o = some (.flush snapA) ∧
      ∀ x v, x < c.tsec → ready c s x → s.t.pers x v → snapT x v → snapA x v
  | .read off cnt got => a.ops o = some (.read off cnt got) ∧
      ∀ x, covers off cnt x → x < c.tsec ∧ s.sh.isLocal (x / c.ss) = true
  | .write off cnt data done => a.ops o = some (.write off cnt data done) ∧
      ∀ x, covers off cnt x → x < c.tsec ∧ s.sh.isLocal (x / c.ss) = true

/-- The relation; `g` is what the plain disk holds past the end of the image, `ex` a request known to the plain disk
only (between two half steps). -/
structure Sim (c : Cfg D) (g : Nat → D) (s : Sys D) (a : Disk D) (ex : Option (Nat × Nat)) : Prop where
  tinv : s.t.Inv
  ainv : a.Inv
  nosrc : ∀ k, (s.sh.fs k = .noSource → c.hs k = false) ∧ (c.hs k = false → s.sh.isLocal k = true)
  vol : ∀ x, x < c.tsec → ready c s x → s.t.vol x = a.vol x
  pers : ∀ x v, x < c.tsec → ready c s x → s.t.pers x v → a.pers x v
  src : ∀ x, x < c.tsec → s.sh.isLocal (x / c.ss) = false → a.vol x = (c.src x).getD (g x)
  stable : ∀ x, x < c.tsec → settled s (x / c.ss) → s.sh.isLocal (x / c.ss) = false → ∀ v, s.t.pers x v → v = s.t.vol x
  fwrite : ∀ k off cnt data done, s.t.ops (.fetch k) = some (.write off cnt data done) → ∀ x, covers off cnt x →
    x / c.ss = k ∧ (∀ v, c.src x = some v → data x = v) ∧ (done x = true → s.t.vol x = data x)
  fflush : ∀ k snap, s.t.ops (.fetch k) = some (.flush snap) → ∀ x, x / c.ss = k → x < c.tsec →
    (∀ v, c.src x = some v → s.t.vol x = v) ∧ ∀ w, snap x w → w = s.t.vol x
  gop : ∀ q id op, s.t.ops (.guest q id) = some op → GuestOp c s a (q, id) op
  queue : ∀ q r, r ∈ (s.ch q).queue → c.validReq r.off r.cnt ∧ a.ops (q, r.id) = some r.op
  fin : ∀ q id ok, (id, ok) ∈ (s.ch q).finished → ok = false ∧ a.ops (q, id) ≠ none
  img : ∀ q id off cnt, (s.ch q).img id = some (off, cnt) →
    ∃ got, a.ops (q, id) = some (.read off cnt got) ∧ ∀ x, covers off cnt x → got x ≠ none ∧ got x = c.src x
  one : ∀ q id, locs s q id ≤ 1
  free : ∀ q id, locs s q id = 0 → a.ops (q, id) = none ∨ ex = some (q, id)
  exf : ∀ q id, ex = some (q, id) → locs s q id = 0

theorem dom_div {c : Cfg D} (hss : 0 < c.ss) {k x : Nat} :
    covers (k * c.ss) (stripeLen c k) x ↔ x / c.ss = k ∧ x < c.tsec := by
  unfold covers stripeLen
  constructor
  · rintro ⟨h1, h2⟩
    have h3 : x < k * c.ss + c.ss := by omega
    refine ⟨?_, by omega⟩
    apply Nat.le_antisymm
    · apply Nat.lt_succ_iff.mp
      rw [Nat.div_lt_iff_lt_mul hss, Nat.succ_mul]; exact h3
    · rw [Nat.le_div_iff_mul_le hss]; exact h1
  · rintro ⟨rfl, h2⟩
    have h1 := Nat.div_mul_le_self x c.ss
    have h3 := Nat.lt_succ_iff.mp (Nat.lt_succ_of_lt (Nat.lt_mul_div_succ x hss))
    have h4 : x < x / c.ss * c.ss + c.ss := by
      have := Nat.lt_mul_div_succ x hss
      rw [Nat.mul_add, Nat.mul_one, Nat.mul_comm] at this; exact this
    omega

/-- Steps that touch neither the data device nor the guest queues. A stripe that becomes local fixes `g` on it. -/
theorem Sim.frame {c : Cfg D} {g : Nat → D} {s s' : Sys D} {a : Disk D} {ex} (h : Sim c g s a ex) (ht : s'.t = s.t) (hch : s'.ch = s.ch)
    (hn : ∀ k, s'.sh.fs k = .noSource → s.sh.fs k = .noSource)
    (hl : ∀ k, s.sh.isLocal k = true → s'.sh.isLocal k = true) (hs : ∀ k, settled s' k → settled s k)
    (hnew : ∀ x, x < c.tsec → c.src x = none → s'.sh.isLocal (x / c.ss) = true →
      s.sh.isLocal (x / c.ss) = true ∨ g x = s.t.vol x) :
    Sim c g s' a ex := by
  have hlocs : ∀ q id, locs s' q id = locs s q id := by intro q id; unfold locs; rw [ht, hch]
  have hl' : ∀ k, s'.sh.isLocal k = false → s.sh.isLocal k = false := by
    intro k hk
    cases hc : s.sh.isLocal k with
    | false => rfl
    | true => rw [hl _ hc] at hk; simp at hk
  have hcase : ∀ x, x < c.tsec → ready c s' x → ready c s x ∨
      (settled s (x / c.ss) ∧ s.sh.isLocal (x / c.ss) = false ∧ s.t.vol x = a.vol x) := by
    intro x hx hr
    rcases hs _ hr.settled with h1 | h1
    · exact .inl (.inl h1)
    · by_cases h2 : c.src x = none
      · rcases hr with h3 | h3
        · cases h4 : s.sh.isLocal (x / c.ss) with
          | true => exact .inl (.inl h4)
          | false =>
            right
            refine ⟨.inr h1, rfl, ?_⟩
            rw [h.src x hx h4, h2]
            rcases hnew x hx h2 h3 with h5 | h5
            · rw [h4] at h5; simp at h5
            · exact h5.symm
        · exact absurd h2 h3.1
      · exact .inl (.inr ⟨h2, h1⟩)
  refine ⟨by rw [ht]; exact h.tinv, h.ainv, fun k => ⟨fun hk => (h.nosrc k).1 (hn k hk), fun hk => hl k ((h.nosrc k).2 hk)⟩, ?_, ?_, ?_, ?_, ?_, ?_, ?_, ?_, ?_, ?_, ?_, ?_, ?_⟩
  · intro x hx hr; rw [ht]
    rcases hcase x hx hr with h1 | ⟨-, -, h1⟩
    · exact h.vol x hx h1
    · exact h1
  · intro x v hx hr hp; rw [ht] at hp
    rcases hcase x hx hr with h1 | ⟨h1, h2, h3⟩
    · exact h.pers x v hx h1 hp
    · rw [h.stable x hx h1 h2 v hp, h3]; exact h.ainv.vol_pers x
  · intro x hx hloc
    exact h.src x hx (hl' _ hloc)
  · intro x hx hst hloc v hp
    rw [ht] at hp ⊢
    exact h.stable x hx (hs _ hst) (hl' _ hloc) v hp
  · rw [ht]; exact h.fwrite
  · rw [ht]; exact h.fflush
  · intro q id op hop
    rw [ht] at hop
    have := h.gop q id op hop
    cases op with
    | read off cnt got => exact ⟨this.1, fun x hx => ⟨(this.2 x hx).1, hl _ (this.2 x hx).2⟩⟩
    | write off cnt data done => exact ⟨this.1, fun x hx => ⟨(this.2 x hx).1, hl _ (this.2 x hx).2⟩⟩
    | flush snap =>
      obtain ⟨sa, h1, h2⟩ := this
      refine ⟨sa, h1, fun x v hx hr hp hsn => ?_⟩
      rw [ht] at hp
      rcases hcase x hx hr with h3 | ⟨h3, h4, h5⟩
      · exact h2 x v hx h3 hp hsn
      · rw [h.stable x hx h3 h4 v hp, h5]; exact h.ainv.vol_snap _ _ h1 x
  · rw [hch]; exact h.queue
  · rw [hch]; exact h.fin
  · rw [hch]; exact h.img
  · intro q id; rw [hlocs]; exact h.one q id
  · intro q id; rw [hlocs]; exact h.free q id
  · intro q id; rw [hlocs]; exact h.exf q id

/-! ### Changes of the plain disk -/

/-- `op'` is `op` with possibly more room in a flush snapshot. -/
def OpLe : Option (Op D) → Option (Op D) → Prop
  | some (.flush s), some (.flush s') => ∀ x v, s x v → s' x v
  | x, y => y = x ∧ ∀ snap, x ≠ some (.flush snap)

theorem OpLe.refl (x : Option (Op D)) : OpLe x x := by
  cases x with
  | none => exact ⟨rfl, by simp⟩
  | some op => cases op <;> simp [OpLe]

theorem OpLe.read {x y : Option (Op D)} (h : OpLe x y) {off cnt got} (hx : x = some (.read off cnt got)) : y = x := by
  subst hx; exact h.1

theorem OpLe.write {x y : Option (Op D)} (h : OpLe x y) {off cnt data done} (hx : x = some (.write off cnt data done)) :
    y = x := by
  subst hx; exact h.1

theorem OpLe.flush {x y : Option (Op D)} (h : OpLe x y) {snap} (hx : x = some (.flush snap)) :
    ∃ snap', y = some (.flush snap') ∧ ∀ x v, snap x v → snap' x v := by
  subst hx
  cases y with
  | none => simp [OpLe] at h
  | some op => cases op <;> simp [OpLe] at h; exact ⟨_, rfl, h⟩

theorem OpLe.none {y : Option (Op D)} (h : OpLe none y) : y = none := h.1

theorem OpLe.ne_none {x y : Option (Op D)} (h : OpLe x y) (hx : x ≠ Option.none) : y ≠ Option.none := by
  cases x with
  | none => exact absurd rfl hx
  | some op =>
    cases op with
    | flush s => obtain ⟨s', h1, -⟩ := h.flush rfl; rw [h1]; simp
    | read => rw [h.read rfl]; simp
    | write => rw [h.write rfl]; simp

/-- The plain disk changes only for request `o`, which is nowhere pending in the lazy disk. -/
theorem Sim.aChange {c : Cfg D} {g : Nat → D} {s : Sys D} {a a' : Disk D} {ex} (h : Sim c g s a ex) (q id : Nat) (hlo : locs s q id = 0)
    (hex : ex = none ∨ ex = some (q, id)) (hinv : a'.Inv) (hvol : a'.vol = a.vol)
    (hpers : ∀ x v, a.pers x v → a'.pers x v) (hops : ∀ o, o ≠ (q, id) → OpLe (a.ops o) (a'.ops o)) :
    Sim c g s a' (some (q, id)) := by
  obtain ⟨hg, hi, hq, hf⟩ := locs_zero.mp hlo
  refine ⟨h.tinv, hinv, h.nosrc, ?_, ?_, ?_, h.stable, h.fwrite, h.fflush, ?_, ?_, ?_, ?_, h.one, ?_, ?_⟩
  · rw [hvol]; exact h.vol
  · intro x v hd hst hp; exact hpers x v (h.pers x v hd hst hp)
  · rw [hvol]; exact h.src
  · intro q' id' op hop
    have hne : (q', id') ≠ (q, id) := by rintro he; cases he; rw [hg] at hop; simp at hop
    have h1 := h.gop q' id' op hop
    cases op with
    | read => exact ⟨by rw [(hops _ hne).read h1.1]; exact h1.1, h1.2⟩
    | write => exact ⟨by rw [(hops _ hne).write h1.1]; exact h1.1, h1.2⟩
    | flush snap =>
      obtain ⟨sa, h2, h3⟩ := h1
      obtain ⟨sa', h4, h5⟩ := (hops _ hne).flush h2
      exact ⟨sa', h4, fun x v hd hst hp hs => h5 x v (h3 x v hd hst hp hs)⟩
  · intro q' r hr
    have hne : (q', r.id) ≠ (q, id) := by rintro he; cases he; exact hq r hr rfl
    obtain ⟨h1, h3⟩ := h.queue q' r hr
    refine ⟨h1, ?_⟩
    cases ho : r.out with
    | none =>
      have e : r.op = .read r.off r.cnt fun _ => none := by simp [QReq.op, ho]
      rw [e] at h3 ⊢; rw [(hops _ hne).read h3]; exact h3
    | some data =>
      have e : r.op = .write r.off r.cnt data fun _ => false := by simp [QReq.op, ho]
      rw [e] at h3 ⊢; rw [(hops _ hne).write h3]; exact h3
  · intro q' id' ok hr
    have hne : (q', id') ≠ (q, id) := by rintro he; cases he; exact hf _ hr rfl
    obtain ⟨h1, h2⟩ := h.fin q' id' ok hr
    exact ⟨h1, (hops _ hne).ne_none h2⟩
  · intro q' id' off cnt hr
    have hne : (q', id') ≠ (q, id) := by rintro he; cases he; rw [hi] at hr; simp at hr
    obtain ⟨got, h1, h2⟩ := h.img q' id' off cnt hr
    exact ⟨got, by rw [(hops _ hne).read h1]; exact h1, h2⟩
  · intro q' id' hz
    by_cases hne : (q', id') = (q, id)
    · exact Or.inr (by rw [hne])
    · left
      have := (h.free q' id' hz).resolve_right (by
        rintro he
        rcases hex with h1 | h1
        · rw [h1] at he; simp at he
        · rw [h1] at he; simp only [Option.some.injEq] at he; exact hne he.symm)
      have h2 := hops _ hne
      rw [this] at h2
      exact h2.none
  · rintro q' id' he
    cases he
    exact hlo

/-- The plain disk finished the exempted request. -/
theorem Sim.drop {c : Cfg D} {g : Nat → D} {s : Sys D} {a : Disk D} {q id : Nat} (h : Sim c g s a (some (q, id)))
    (ho : a.ops (q, id) = none) : Sim c g s a none := by
  refine { h with free := ?_, exf := by simp }
  intro q' id' hz
  rcases h.free q' id' hz with h1 | h1
  · exact Or.inl h1
  · cases h1; exact Or.inl ho

theorem opLe_issue (a : Disk D) (o o' : Nat × Nat) (r : Req D) (hne : o' ≠ o) : OpLe (a.ops o') ((a.issue o r).ops o') := by
  cases r with
  | read off cnt => simp only [Disk.issue, Dev.issueRead, upd_ne _ _ hne]; exact .refl _
  | flush => simp only [Disk.issue, Dev.issueFlush, upd_ne _ _ hne]; exact .refl _
  | write off cnt data =>
    simp only [Disk.issue, ops_issueWrite_ne _ _ _ _ hne]
    cases h : a.ops o' with
    | none => exact ⟨rfl, by simp⟩
    | some op =>
      cases op with
      | read => exact ⟨rfl, by simp⟩
      | write => exact ⟨rfl, by simp⟩
      | flush s => exact fun x v hs => Or.inl hs

theorem Disk.issue_inv {a : Disk D} (h : a.Inv) (o : Nat × Nat) (r : Req D) : (Disk.Disk.issue a o r).Inv := by
  cases r with
  | read off cnt => exact h.issueRead _ _ _
  | flush => exact h.issueFlush _
  | write off cnt data => exact h.issueWrite _ _ _ _

theorem issue_vol (a : Disk D) (o : Nat × Nat) (r : Req D) : (a.issue o r).vol = a.vol := by
  cases r <;> rfl

theorem issue_pers (a : Disk D) (o : Nat × Nat) (r : Req D) (x : Nat) (v : D) (h : a.pers x v) :
    (a.issue o r).pers x v := by
  cases r with
  | read => exact h
  | flush => exact h
  | write => exact Or.inl h

/-- First half of a request: the plain disk accepts it. -/
theorem Sim.issue {c : Cfg D} {g : Nat → D} {s : Sys D} {a : Disk D} (h : Sim c g s a none) {q id : Nat} (hid : s.idFree q id) (r : Req D) :
    Sim c g s (a.issue (q, id) r) (some (q, id)) :=
  h.aChange q id (locs_zero.mpr hid) (Or.inl rfl) (Disk.issue_inv h.ainv _ _) (issue_vol _ _ _) (issue_pers _ _ _)
    (fun o hne => opLe_issue a _ o r hne)

/-! ### Placing a request -/

theorem setCh_ch (s : Sys D) (q q' : Nat) (f : Chan D → Chan D) :
    (s.setCh q f).ch q' = if q' = q then f (s.ch q) else s.ch q' := by
  unfold Sys.setCh
  simp only [upd]

theorem locs_t {s s' : Sys D} (ht : ∀ q id, s'.t.kinds (.guest q id) = s.t.kinds (.guest q id)) (hch : s'.ch = s.ch) (q id : Nat) :
    locs s' q id = locs s q id := by
  unfold locs; rw [ht, hch]

/-- Exempted request goes to `finished` as failed. -/
theorem Sim.toFinished {c : Cfg D} {g : Nat → D} {s : Sys D} {a : Disk D} {q id : Nat} (h : Sim c g s a (some (q, id)))
    (ho : a.ops (q, id) ≠ none) : Sim c g (finishFalse s q id) a none := by
  have hl0 := h.exf q id rfl
  have hlocs : ∀ q' id', locs (finishFalse s q id) q' id' = locs s q' id' + (if (q', id') = (q, id) then 1 else 0) := by
    intro q' id'
    unfold locs finishFalse
    rw [setCh_ch]
    by_cases hq : q' = q
    · subst hq
      simp only [if_true, List.countP_append, Sys.setCh, List.countP_cons, List.countP_nil]
      by_cases hi : id' = id
      · subst hi; simp; omega
      · simp [hi, Ne.symm hi]
    · simp [hq, Sys.setCh]
  refine { h with queue := ?_, fin := ?_, img := ?_, one := ?_, free := ?_, exf := by simp, gop := ?_ }
  · exact h.gop
  · intro q' r hr
    unfold finishFalse at hr
    rw [setCh_ch] at hr
    split at hr
    · rename_i he; subst he; exact h.queue q' r hr
    · exact h.queue q' r hr
  · intro q' id' ok hr
    unfold finishFalse at hr
    rw [setCh_ch] at hr
    split at hr
    · rename_i he; subst he
      simp only [List.mem_append, List.mem_singleton, Prod.mk.injEq] at hr
      rcases hr with hr | ⟨rfl, rfl⟩
      · exact h.fin q' id' ok hr
      · exact ⟨rfl, ho⟩
    · exact h.fin q' id' ok hr
  · intro q' id' off cnt hr
    unfold finishFalse at hr
    rw [setCh_ch] at hr
    split at hr
    · rename_i he; subst he; exact h.img q' id' off cnt hr
    · exact h.img q' id' off cnt hr
  · intro q' id'
    rw [hlocs]
    split
    · rename_i he; cases he; rw [hl0]; omega
    · exact h.one q' id'
  · intro q' id' hz
    rw [hlocs] at hz
    have hz1 : locs s q' id' = 0 := by omega
    rcases h.free q' id' hz1 with h1 | h1
    · exact Or.inl h1
    · cases h1; simp at hz

/-- Exempted request starts to wait. -/
theorem Sim.toQueue {c : Cfg D} {g : Nat → D} {s : Sys D} {a : Disk D} {q : Nat} {r : QReq D} (h : Sim c g s a (some (q, r.id)))
    (hv : c.validReq r.off r.cnt)
    (ho : a.ops (q, r.id) = some r.op) (req : Nat → Bool) (ms : List Msg) :
    Sim c g { s.setCh q (fun ch => { ch with requested := req, queue := ch.queue ++ [r] }) with msgs := ms } a none := by
  have hl0 := h.exf q r.id rfl
  have hch : ∀ q', ({ s.setCh q (fun ch => { ch with requested := req, queue := ch.queue ++ [r] }) with msgs := ms } : Sys D).ch q' =
      if q' = q then { s.ch q with requested := req, queue := (s.ch q).queue ++ [r] } else s.ch q' :=
    fun q' => setCh_ch s q q' (fun ch => { ch with requested := req, queue := ch.queue ++ [r] })
  have hlocs : ∀ q' id', locs { s.setCh q (fun ch => { ch with requested := req, queue := ch.queue ++ [r] }) with msgs := ms } q' id' =
      locs s q' id' + (if (q', id') = (q, r.id) then 1 else 0) := by
    intro q' id'
    unfold locs
    rw [hch]
    by_cases hq : q' = q
    · subst hq
      simp only [if_true, List.countP_append, Sys.setCh, List.countP_cons, List.countP_nil]
      by_cases hi : id' = r.id
      · subst hi; simp; omega
      · simp [hi, Ne.symm hi]
    · simp [hq, Sys.setCh]
  refine { h with queue := ?_, fin := ?_, img := ?_, one := ?_, free := ?_, exf := by simp, gop := ?_ }
  · exact h.gop
  · intro q' r' hr
    rw [hch] at hr
    split at hr
    · rename_i he; subst he
      simp only [List.mem_append, List.mem_singleton] at hr
      rcases hr with hr | rfl
      · exact h.queue q' r' hr
      · exact ⟨hv, ho⟩
    · exact h.queue q' r' hr
  · intro q' id' ok hr
    rw [hch] at hr
    split at hr
    · rename_i he; subst he; exact h.fin q' id' ok hr
    · exact h.fin q' id' ok hr
  · intro q' id' off cnt hr
    rw [hch] at hr
    split at hr
    · rename_i he; subst he; exact h.img q' id' off cnt hr
    · exact h.img q' id' off cnt hr
  · intro q' id'
    rw [hlocs]
    split
    · rename_i he; cases he; rw [hl0]; omega
    · exact h.one q' id'
  · intro q' id' hz
    rw [hlocs] at hz
    have hz1 : locs s q' id' = 0 := by omega
    rcases h.free q' id' hz1 with h1 | h1
    · exact Or.inl h1
    · cases h1; simp at hz

/-- Exempted read goes to the image. -/
theorem Sim.toImage {c : Cfg D} {g : Nat → D} {s : Sys D} {a : Disk D} {q id off cnt : Nat} (h : Sim c g s a (some (q, id)))
    {got} (ho : a.ops (q, id) = some (.read off cnt got))
    (hgot : ∀ x, covers off cnt x → got x ≠ none ∧ got x = c.src x) :
    Sim c g (s.setCh q fun ch => { ch with img := upd ch.img id (some (off, cnt)) }) a none := by
  have hl0 := h.exf q id rfl
  have hi0 := (locs_zero.mp hl0).2.1
  have hch : ∀ q', (s.setCh q fun ch => { ch with img := upd ch.img id (some (off, cnt)) }).ch q' =
      if q' = q then { s.ch q with img := upd (s.ch q).img id (some (off, cnt)) } else s.ch q' := fun q' => setCh_ch s q q' _
  have hlocs : ∀ q' id', locs (s.setCh q fun ch => { ch with img := upd ch.img id (some (off, cnt)) }) q' id' =
      locs s q' id' + (if (q', id') = (q, id) then 1 else 0) := by
    intro q' id'
    unfold locs
    rw [hch]
    by_cases hq : q' = q
    · subst hq
      simp only [if_true, Sys.setCh]
      by_cases hi : id' = id
      · subst hi; simp [hi0]
      · simp [hi, upd_ne _ _ hi]
    · simp [hq, Sys.setCh]
  refine { h with queue := ?_, fin := ?_, img := ?_, one := ?_, free := ?_, exf := by simp, gop := ?_ }
  · exact h.gop
  · intro q' r' hr
    rw [hch] at hr
    split at hr
    · rename_i he; subst he; exact h.queue q' r' hr
    · exact h.queue q' r' hr
  · intro q' id' ok hr
    rw [hch] at hr
    split at hr
    · rename_i he; subst he; exact h.fin q' id' ok hr
    · exact h.fin q' id' ok hr
  · intro q' id' off' cnt' hr
    rw [hch] at hr
    split at hr
    · rename_i he; subst he
      by_cases hi : id' = id
      · subst hi
        simp only [upd_same, Option.some.injEq, Prod.mk.injEq] at hr
        obtain ⟨rfl, rfl⟩ := hr
        exact ⟨got, ho, hgot⟩
      · simp only [upd_ne _ _ hi] at hr
        exact h.img q' id' off' cnt' hr
    · exact h.img q' id' off' cnt' hr
  · intro q' id'
    rw [hlocs]
    split
    · rename_i he; cases he; rw [hl0]; omega
    · exact h.one q' id'
  · intro q' id' hz
    rw [hlocs] at hz
    have hz1 : locs s q' id' = 0 := by omega
    rcases h.free q' id' hz1 with h1 | h1
    · exact Or.inl h1
    · cases h1; simp at hz

/-- Exempted request goes to the data device; all its stripes are local. -/
theorem Sim.toData {c : Cfg D} {g : Nat → D} {s : Sys D} {a : Disk D} {q : Nat} {r : QReq D} (hf : FetchInv c s)
    (h : Sim c g s a (some (q, r.id))) (ho : a.ops (q, r.id) = some r.op)
    (hd : ∀ x, covers r.off r.cnt x → x < c.tsec ∧ s.sh.isLocal (x / c.ss) = true) : Sim c g (toBase s q r) a none := by
  have hl0 := h.exf q r.id rfl
  have hg0 := (locs_zero.mp hl0).1
  have hkinds : ∀ q' id', (toBase s q r).t.kinds (.guest q' id') =
      if (q', id') = (q, r.id) then some r.op.kind else s.t.kinds (.guest q' id') := by
    intro q' id'
    unfold toBase QReq.op
    cases r.out with
    | none => simp [kinds_issueRead, Op.kind]
    | some data => simp [kinds_issueWrite, Op.kind]
  have hch : (toBase s q r).ch = s.ch := toBase_frame.2.2.2.2.2
  have hsh : (toBase s q r).sh = s.sh := toBase_frame.2.2.1
  have hset : ∀ k, settled (toBase s q r) k ↔ settled s k := by
    intro k; unfold settled; rw [hsh, toBase_frame.1]
  have hrdy : ∀ x, ready c (toBase s q r) x ↔ ready c s x := ready.of_eq hsh toBase_frame.1
  have hlocs : ∀ q' id', locs (toBase s q r) q' id' = locs s q' id' + (if (q', id') = (q, r.id) then 1 else 0) := by
    intro q' id'
    unfold locs
    rw [hkinds, hch]
    by_cases hq : (q', id') = (q, r.id)
    · cases hq
      simp [kinds_none.mpr hg0]; omega
    · simp [hq]
  have hone : ∀ q' id', locs (toBase s q r) q' id' ≤ 1 := by
    intro q' id'
    rw [hlocs]
    split
    · rename_i he; cases he; rw [hl0]; omega
    · exact h.one q' id'
  have hfree : ∀ q' id', locs (toBase s q r) q' id' = 0 → a.ops (q', id') = none ∨ (none : Option (Nat × Nat)) = some (q', id') := by
    intro q' id' hz
    rw [hlocs] at hz
    have hz1 : locs s q' id' = 0 := by omega
    rcases h.free q' id' hz1 with h1 | h1
    · exact Or.inl h1
    · cases h1; simp at hz
  cases hout : r.out with
  | none =>
    have hop : r.op = .read r.off r.cnt fun _ => none := by simp [QReq.op, hout]
    have ht : (toBase s q r).t = s.t.issueRead (.guest q r.id) r.off r.cnt := by simp [toBase, hout]
    have hopne : ∀ o, o ≠ .guest q r.id → (toBase s q r).t.ops o = s.t.ops o := by
      intro o hne; rw [ht]; simp [Dev.issueRead, upd_ne _ _ hne]
    refine ⟨by rw [ht]; exact h.tinv.issueRead _ _ _, h.ainv, by rw [hsh]; exact h.nosrc, ?_, ?_, ?_, ?_, ?_, ?_, ?_, ?_, ?_, ?_, hone, hfree, by simp⟩
    · intro x hx hs; rw [hrdy] at hs; rw [ht]; exact h.vol x hx hs
    · intro x v hx hs hp; rw [hrdy] at hs; rw [ht] at hp; exact h.pers x v hx hs hp
    · rw [hsh]; exact h.src
    · intro x hx hs; rw [hset] at hs; rw [hsh, ht]; exact h.stable x hx hs
    · intro k off cnt data done hk
      rw [hopne _ (by simp)] at hk
      rw [ht]; exact h.fwrite k off cnt data done hk
    · intro k snap hk
      rw [hopne _ (by simp)] at hk
      rw [ht]; exact h.fflush k snap hk
    · intro q' id' op hk
      by_cases he : (q', id') = (q, r.id)
      · cases he
        rw [ht] at hk
        simp only [Dev.issueRead, upd_same, Option.some.injEq] at hk
        subst hk
        refine ⟨by rw [ho, hop], ?_⟩
        rw [hsh]; exact hd
      · rw [hopne _ (by intro h1; apply he; cases h1; rfl)] at hk
        have := h.gop q' id' op hk
        cases op with
        | read => exact ⟨this.1, by rw [hsh]; exact this.2⟩
        | write => exact ⟨this.1, by rw [hsh]; exact this.2⟩
        | flush snap =>
          obtain ⟨sa, h1, h2⟩ := this
          refine ⟨sa, h1, fun x v hx hs hp => h2 x v hx ((hrdy _).mp hs) ?_⟩
          rw [ht] at hp; exact hp
    · rw [hch]; exact h.queue
    · rw [hch]; exact h.fin
    · rw [hch]; exact h.img
  | some data =>
    have hop : r.op = .write r.off r.cnt data fun _ => false := by simp [QReq.op, hout]
    rw [hop] at ho
    have ht : (toBase s q r).t = s.t.issueWrite (.guest q r.id) r.off r.cnt data := by simp [toBase, hout]
    have hnotk : ∀ k x, covers r.off r.cnt x → x / c.ss = k → s.t.kinds (.fetch k) = none := by
      intro k x hx hk
      by_cases hn : s.t.kinds (.fetch k) = none
      · exact hn
      · have := ((hf.ok k).busy hn).1
        rw [← hk, (hd x hx).2] at this; simp at this
    have hafly : ∀ x, covers r.off r.cnt x → a.inflight x (data x) :=
      fun x hx => ⟨(q, r.id), r.off, r.cnt, data, _, ho, hx, rfl⟩
    refine ⟨by rw [ht]; exact h.tinv.issueWrite _ _ _ _, h.ainv, by rw [hsh]; exact h.nosrc, ?_, ?_, ?_, ?_, ?_, ?_, ?_, ?_, ?_, ?_, hone, hfree, by simp⟩
    · intro x hx hs; rw [hrdy] at hs; rw [ht]; exact h.vol x hx hs
    · intro x v hx hs hp
      rw [hrdy] at hs; rw [ht] at hp
      rcases hp with hp | ⟨hcov, rfl⟩
      · exact h.pers x v hx hs hp
      · exact h.ainv.fly_pers x _ (hafly x hcov)
    · rw [hsh]; exact h.src
    · intro x hx hs hlo v hp
      rw [hset] at hs; rw [hsh] at hlo; rw [ht] at hp ⊢
      rcases hp with hp | ⟨hcov, rfl⟩
      · exact h.stable x hx hs hlo v hp
      · rw [(hd x hcov).2] at hlo; simp at hlo
    · intro k off cnt dt dn hk
      rw [ht, issueWrite_write (by simp)] at hk
      rw [ht]; exact h.fwrite k off cnt dt dn hk
    · intro k snap hk x hxk hxt
      rw [ht] at hk
      obtain ⟨-, s0, h0, rfl⟩ := issueWrite_flush hk
      obtain ⟨h1, h2⟩ := h.fflush k s0 h0 x hxk hxt
      refine ⟨by rw [ht]; exact h1, ?_⟩
      rintro w (hw | ⟨hcov, -⟩)
      · rw [ht]; exact h2 w hw
      · have := hnotk k x hcov hxk
        rw [kinds_of_ops h0] at this; simp at this
    · intro q' id' op hk
      by_cases he : (q', id') = (q, r.id)
      · cases he
        rw [ht, ops_issueWrite_same] at hk
        simp only [Option.some.injEq] at hk
        subst hk
        refine ⟨ho, ?_⟩
        rw [hsh]; exact hd
      · have hne : Owner.guest q' id' ≠ Owner.guest q r.id := by intro h1; apply he; cases h1; rfl
        rw [ht] at hk
        cases op with
        | read =>
          rw [issueWrite_read hne] at hk
          have := h.gop q' id' _ hk
          exact ⟨this.1, by rw [hsh]; exact this.2⟩
        | write =>
          rw [issueWrite_write hne] at hk
          have := h.gop q' id' _ hk
          exact ⟨this.1, by rw [hsh]; exact this.2⟩
        | flush snap =>
          obtain ⟨-, s0, h0, rfl⟩ := issueWrite_flush hk
          obtain ⟨sa, h1, h2⟩ := h.gop q' id' _ h0
          refine ⟨sa, h1, fun x v hx hs hp hsn => ?_⟩
          rw [hrdy] at hs
          rw [ht] at hp
          by_cases hcov : covers r.off r.cnt x ∧ v = data x
          · obtain ⟨hc1, rfl⟩ := hcov
            exact h.ainv.fly_snap _ _ h1 x _ (hafly x hc1)
          · exact h2 x v hx hs (hp.resolve_right hcov) (hsn.resolve_right hcov)
    · rw [hch]; exact h.queue
    · rw [hch]; exact h.fin
    · rw [hch]; exact h.img

end Verif.Lazy
