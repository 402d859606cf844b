import Verif.Proof.Crypt
import Verif.Proof.DiskTrace

/-! # C19–C21: disk encryption and key wrapping -/

set_option maxRecDepth 8000

namespace Verif.Crypt
open Verif Verif.Disk

variable {p : Xts} {k : Keys}

/-! ## The encrypting device in use -/

/-- Steps of the encrypting device: requests of any queue and id, transfers of single sectors by the base device,
completions and power losses. `issue` of a write carries the caller's plaintext, `resp` the buffer the reader sees. -/
inductive CStep (p : Xts) (k : Keys) : CDev (Nat × Nat) → List (Ev Sector) → CDev (Nat × Nat) → Prop where
  | read (d : CDev (Nat × Nat)) (c id off cnt : Nat) (h : d.base.ops (c, id) = none) :
      CStep p k d [.issue c id (.read off cnt)] (d.addRead (c, id) off cnt)
  | write (d d' : CDev (Nat × Nat)) (c id off cnt : Nat) (buf : Bytes) (h : d.base.ops (c, id) = none)
      (hd : d.addWrite p k (c, id) off cnt buf = .ok d') :
      CStep p k d [.issue c id (.write off cnt (bufData buf off cnt))] d'
  | flush (d : CDev (Nat × Nat)) (c id : Nat) (h : d.base.ops (c, id) = none) :
      CStep p k d [.issue c id .flush] (d.addFlush (c, id))
  | exec (d : CDev (Nat × Nat)) (o : Nat × Nat) (x : Nat) : CStep p k d [] { d with base := d.base.exec o x }
  | done (d d' : CDev (Nat × Nat)) (c id : Nat) (ok : Bool) (buf : Bytes) (h : d.base.mayComplete (c, id) ok)
      (hd : d.complete p k (c, id) ok = .ok (d', buf)) :
      CStep p k d [.resp c id ok (sectorsOf buf)] d'
  | crash (d : CDev (Nat × Nat)) (v : Nat → Sector) (h : d.base.survives v) : CStep p k d [.crash] (CDev.fresh v)

inductive CRun (p : Xts) (k : Keys) : CDev (Nat × Nat) → List (Ev Sector) → CDev (Nat × Nat) → Prop where
  | nil (d : CDev (Nat × Nat)) : CRun p k d [] d
  | snoc {d d' d'' : CDev (Nat × Nat)} {es es' : List (Ev Sector)} :
      CRun p k d es d' → CStep p k d' es' d'' → CRun p k d (es ++ es') d''

/-- The recorded reads are the reads in flight. -/
def Recorded {O : Type} (d : CDev O) : Prop :=
  ∀ o off cnt, d.reads o = some (off, cnt) ↔ ∃ got, d.base.ops o = some (.read off cnt got)

def zsec : Sector := ⟨zeros 512, zeros_length 512⟩

/-- What the encrypting device looks like to its user. -/
def CDev.abs {O : Type} (hp : p.Lawful) (k : Keys) (d : CDev O) : Dev O Sector := absDev zsec (encS hp k) (decS hp k) d.base

theorem bufData_dec (hp : p.Lawful) {buf out : Bytes} {off cnt : Nat}
    (h : ∀ j, j < cnt → sectorAt out j = encS hp k (off + j) (sectorAt buf j)) :
    (fun x => if covers off cnt x then decS hp k x (bufData out off cnt x) else zsec) = bufData buf off cnt := by
  funext x
  simp only [bufData]
  split
  · rename_i hc
    have := h (x - off) (by obtain ⟨h1, h2⟩ := hc; omega)
    rw [this, show off + (x - off) = x by obtain ⟨h1, h2⟩ := hc; omega, (inverse hp k).1]
  · rfl

theorem addWrite_ok {O : Type} [DecidableEq O] (hp : p.Lawful) {d d' : CDev O} {o : O} {off cnt : Nat} {buf : Bytes}
    (h : d.addWrite p k o off cnt buf = .ok d') :
    ∃ out, (∀ j, j < cnt → sectorAt out j = encS hp k (off + j) (sectorAt buf j)) ∧
      d' = { d with base := d.base.issueWrite o off cnt (bufData out off cnt) } ∧ (0 < cnt → cnt * 512 ≤ buf.length) := by
  simp only [CDev.addWrite] at h
  split at h
  · rename_i buf' hb
    simp only [Except.ok.injEq] at h
    subst h
    rcases Nat.eq_zero_or_pos cnt with rfl | hc
    · exact ⟨buf', by omega, rfl, by omega⟩
    · rcases Nat.lt_or_ge buf.length (cnt * 512) with hl | hl
      · have := cryptLoop_short (encSector p k) (fun x s hs => hp.enc_len _ _ _ _ hs) off cnt 0 buf hc (by omega)
        rw [encrypt, this] at hb; simp at hb
      · obtain ⟨out, h1, h2, h3, h4⟩ := encrypt_ok (k := k) (start := off) hp hl
        rw [h1] at hb
        simp only [Except.ok.injEq] at hb
        subst hb
        exact ⟨out, h3, rfl, fun _ => hl⟩
  · simp at h

theorem result_get {d : Dev (Nat × Nat) Sector} {o : Nat × Nat} {off cnt : Nat} {got : Nat → Option Sector}
    (ho : d.ops o = some (.read off cnt got)) (hm : d.mayComplete o true) (j : Nat) (hj : j < cnt) :
    ∃ s, got (off + j) = some s := by
  obtain ⟨op, h1, h2⟩ := hm
  rw [ho] at h1
  simp only [Option.some.injEq] at h1
  subst h1
  have := h2 rfl (off + j) ⟨by omega, by omega⟩
  exact Option.ne_none_iff_exists'.1 this

/-- A completion never panics, and the reader sees the decrypted sectors. -/
theorem complete_ok (hp : p.Lawful) {d : CDev (Nat × Nat)} (hr : Recorded d) {o : Nat × Nat} {ok : Bool}
    (hm : d.base.mayComplete o ok) :
    ∃ buf, d.complete p k o ok = .ok ({ base := d.base.complete o ok, reads := upd d.reads o none }, buf) ∧
      sectorsOf buf = (d.abs hp k).result o ok := by
  rcases hrd : d.reads o with _ | ⟨off, cnt⟩
  · refine ⟨readBuf (d.base.result o ok), by simp [CDev.complete, hrd], ?_⟩
    have h1 : ∀ off cnt got, d.base.ops o ≠ some (.read off cnt got) := by
      intro off cnt got h
      have := (hr o off cnt).2 ⟨got, h⟩
      rw [hrd] at this; simp at this
    rcases hop : d.base.ops o with _ | (⟨a, b, got⟩ | ⟨a, b, data, done⟩ | ⟨snap⟩)
    · simp [Dev.result, CDev.abs, absDev, hop, readBuf, sectorsOf]
    · exact absurd hop (h1 _ _ _)
    · simp [Dev.result, CDev.abs, absDev, absOp, hop, readBuf, sectorsOf]
    · simp [Dev.result, CDev.abs, absDev, absOp, hop, readBuf, sectorsOf]
  · obtain ⟨got, hop⟩ := (hr o off cnt).1 hrd
    cases ok with
    | false =>
      refine ⟨readBuf (d.base.result o false), by simp [CDev.complete, hrd], ?_⟩
      simp [Dev.result, CDev.abs, absDev, absOp, hop, readBuf, sectorsOf]
    | true =>
      have hres : d.base.result o true = (List.range cnt).map fun i => got (off + i) := by simp [Dev.result, hop]
      have hlen : (readBuf (d.base.result o true)).length = cnt * 512 := by rw [readBuf_length, hres]; simp
      obtain ⟨out, h1, h2, h3, -⟩ := decrypt_ok (k := k) (start := off) hp (Nat.le_of_eq hlen.symm)
      refine ⟨out, by simp [CDev.complete, hrd, h1, Except.map], ?_⟩
      rw [CDev.abs, abs_result d.base hop, sectorsOf, h2, hlen, Nat.mul_div_cancel _ (by omega)]
      apply List.map_congr_left
      intro j hj
      have hj := List.mem_range.1 hj
      obtain ⟨s, hs⟩ := result_get hop hm j hj
      rw [h3 j hj, hs, readBuf_sectorAt _ j s (by rw [hres]; simp [hj, hs])]
      rfl

theorem CStep.recorded (hp : p.Lawful) {d d' : CDev (Nat × Nat)} {es : List (Ev Sector)} (h : CStep p k d es d')
    (hr : Recorded d) : Recorded d' := by
  cases h with
  | read c id off cnt h =>
    intro o a b
    simp only [CDev.addRead, Dev.issueRead, upd]
    split
    · simp only [Option.some.injEq, Prod.mk.injEq, Op.read.injEq]
      exact ⟨fun ⟨h1, h2⟩ => ⟨_, h1, h2, rfl⟩, fun ⟨_, h1, h2, _⟩ => ⟨h1, h2⟩⟩
    · exact hr o a b
  | write _ c id off cnt buf h hd =>
    obtain ⟨out, -, rfl, -⟩ := addWrite_ok hp hd
    intro o a b
    have := hr o a b
    simp only [this]
    by_cases ho : o = (c, id)
    · subst ho; simp [h, Dev.issueWrite]
    · rw [ops_issueWrite_ne _ _ _ _ ho]
      simp only [Option.map_eq_some_iff, addSnap_read]
      exact ⟨fun ⟨g, hg⟩ => ⟨g, _, hg, rfl⟩, fun ⟨g, _, hg, e⟩ => ⟨g, by rw [hg, e]⟩⟩
  | flush c id h =>
    intro o a b
    have := hr o a b
    simp only [CDev.addFlush, Dev.issueFlush, upd, this]
    split
    · rename_i ho; subst ho; simp [h]
    · rfl
  | exec o x =>
    intro o' a b
    rw [hr o' a b]
    have h1 := kinds_exec d.base o o' x
    constructor
    · rintro ⟨g, hg⟩
      exact kinds_read (by rw [h1, kinds_of_ops hg]; rfl)
    · rintro ⟨g, hg⟩
      exact kinds_read (by rw [← h1, kinds_of_ops hg]; rfl)
  | done _ c id ok buf h hd =>
    obtain ⟨buf', h1, -⟩ := complete_ok (k := k) hp hr h
    rw [h1] at hd
    simp only [Except.ok.injEq, Prod.mk.injEq] at hd
    obtain ⟨rfl, -⟩ := hd
    intro o a b
    have := hr o a b
    simp only [Dev.complete, upd]
    split
    · simp
    · exact this
  | crash v h => intro o a b; simp [CDev.fresh, Dev.fresh]

theorem CRun.recorded (hp : p.Lawful) {w : Nat → Sector} {d : CDev (Nat × Nat)} {es : List (Ev Sector)}
    (h : CRun p k (CDev.fresh w) es d) : Recorded d := by
  generalize he : (CDev.fresh w : CDev (Nat × Nat)) = d0 at h
  induction h with
  | nil => subst he; intro o a b; simp [CDev.fresh, Dev.fresh]
  | snoc _ h2 ih => exact h2.recorded hp ih

theorem CStep.abs (hp : p.Lawful) {d d' : CDev (Nat × Nat)} {es : List (Ev Sector)} (h : CStep p k d es d')
    (hr : Recorded d) : Disk.Step (d.abs hp k) es (d'.abs hp k) := by
  have hi := inverse hp k
  have hn : ∀ o, d.base.ops o = none → (d.abs hp k).ops o = none := by intro o h; simp [CDev.abs, absDev, h]
  cases h with
  | read c id off cnt h =>
    have := Disk.Step.issue (d.abs hp k) c id (.read off cnt) (hn _ h)
    simpa [CDev.addRead, CDev.abs, abs_issueRead, Disk.issue] using this
  | write _ c id off cnt buf h hd =>
    obtain ⟨out, h3, rfl, -⟩ := addWrite_ok hp hd
    have := Disk.Step.issue (d.abs hp k) c id (.write off cnt (bufData buf off cnt)) (hn _ h)
    simp only [Disk.issue] at this
    simp only [CDev.abs, abs_issueWrite hi, bufData_dec hp h3]
    exact this
  | flush c id h =>
    have := Disk.Step.issue (d.abs hp k) c id .flush (hn _ h)
    simp only [CDev.addFlush, CDev.abs, abs_issueFlush hi]
    exact this
  | exec o x =>
    have := Disk.Step.exec (d.abs hp k) o x
    simp only [CDev.abs, abs_exec] at this ⊢
    exact this
  | done _ c id ok buf h hd =>
    obtain ⟨buf', h1, h2⟩ := complete_ok (k := k) hp hr h
    rw [h1] at hd
    simp only [Except.ok.injEq, Prod.mk.injEq] at hd
    obtain ⟨rfl, rfl⟩ := hd
    have := Disk.Step.respond (d.abs hp k) c id ok ((abs_mayComplete d.base (c, id) ok).2 h)
    rw [h2]
    simp only [CDev.abs, abs_complete] at this ⊢
    exact this
  | crash v h =>
    have := Disk.Step.crash (d.abs hp k) _ ((abs_survives hi d.base v).1 h)
    simp only [CDev.abs, CDev.fresh, abs_fresh hi] at this ⊢
    exact this

/-! ## C19 -/

/-- **C19** Whatever the users of the encrypting device see — any requests on any queues, any completion order, any
failures and power losses — they could have seen of a plain disk that initially held the decrypted contents. -/
theorem C19_refines_plain_disk (hp : p.Lawful) {w : Nat → Sector} {es : List (Ev Sector)} {d : CDev (Nat × Nat)}
    (h : CRun p k (CDev.fresh w) es d) : ∃ pd, Disk.Run (Dev.fresh fun x => decS hp k x (w x)) es pd := by
  refine ⟨d.abs hp k, ?_⟩
  generalize he : (CDev.fresh w : CDev (Nat × Nat)) = d0 at h
  induction h with
  | nil => subst he; simp only [CDev.abs, CDev.fresh, abs_fresh (inverse hp k)]; exact .nil _
  | snoc h1 h2 ih =>
    have hr : Recorded _ := (he ▸ h1 : CRun p k (CDev.fresh w) _ _).recorded hp
    exact ih.snoc (h2.abs hp hr)

/-- **C19** A read returns the data last written to each sector, however both were split into requests: `buf` is the
buffer of a completed write covering sector `x`, `out` the sectors seen by a later read covering it. -/
theorem C19_read_after_write (hp : p.Lawful) {w : Nat → Sector} {es e0 e1 e2 e3 : List (Ev Sector)}
    {d : CDev (Nat × Nat)} {q i off cnt q' r off' cnt' x : Nat} {buf : Bytes} {o1 out : List (Option Sector)}
    (h : CRun p k (CDev.fresh w) es d)
    (hv : es = (e0 ++ Ev.issue q i (.write off cnt (bufData buf off cnt)) :: e1 ++ [Ev.resp q i true o1]) ++ e2 ++
      (Ev.issue q' r (.read off' cnt') :: e3 ++ [Ev.resp q' r true out]))
    (hx : covers off cnt x) (hx' : covers off' cnt' x)
    (h0 : settledWrites e0 x) (h1 : quiet e1 x) (h2 : quiet e2 x) (h3 : quiet e3 x)
    (o1' : unanswered (q, i) e1) (o2 : ∀ e ∈ e2, e ≠ .crash) (o3 : unanswered (q', r) e3) :
    out[x - off']? = some (some (sectorAt buf (x - off))) := by
  obtain ⟨pd, hd⟩ := C19_refines_plain_disk hp h
  rw [hv] at hd
  obtain ⟨m2, g1, g2⟩ := hd.split _ _ rfl
  obtain ⟨m1, g3, g4⟩ := g1.split _ _ rfl
  have r1 := Rest.write g3 rfl h0 h1 o1' hx
  have := (r1.run g4 h2 o2).read g2 h3 o3 hx'
  simpa [bufData, hx] using this

/-- **C19** No request of a well-behaved user is stuck: a write whose buffer holds the request is accepted, a write
with a shorter buffer panics, and a completion of the base device is always delivered. -/
theorem C19_total (hp : p.Lawful) {w : Nat → Sector} {es : List (Ev Sector)} {d : CDev (Nat × Nat)}
    (h : CRun p k (CDev.fresh w) es d) (o : Nat × Nat) :
    (∀ off cnt buf, cnt * 512 ≤ buf.length → ∃ d', d.addWrite p k o off cnt buf = .ok d') ∧
    (∀ off cnt buf, 0 < cnt → buf.length < cnt * 512 → d.addWrite p k o off cnt buf = .error .panic) ∧
    ∀ ok, d.base.mayComplete o ok → ∃ r, d.complete p k o ok = .ok r := by
  refine ⟨fun off cnt buf hl => ?_, fun off cnt buf hc hl => ?_, fun ok hm => ?_⟩
  · obtain ⟨out, h1, -⟩ := encrypt_ok (k := k) (start := off) hp hl
    exact ⟨_, by simp only [CDev.addWrite, h1]; rfl⟩
  · have := cryptLoop_short (encSector p k) (fun x s hs => hp.enc_len _ _ _ _ hs) off cnt 0 buf hc (by omega)
    simp only [CDev.addWrite, encrypt, this]
  · obtain ⟨buf, h1, -⟩ := complete_ok (k := k) hp (h.recorded hp) hm
    exact ⟨_, h1⟩

/-- **C19** for any users (`O` is any set of request owners, for instance the lazy disk's worker and guest queues):
each operation of the encrypting device is the same operation of the plain device it stands for. -/
theorem C19_composes {O : Type} [DecidableEq O] (hp : p.Lawful) (k : Keys) (d : CDev O) (o : O) :
    (∀ off cnt, (d.addRead o off cnt).abs hp k = (d.abs hp k).issueRead o off cnt) ∧
    (∀ off cnt buf d', d.addWrite p k o off cnt buf = .ok d' →
      d'.abs hp k = (d.abs hp k).issueWrite o off cnt (bufData buf off cnt)) ∧
    (d.addFlush o).abs hp k = (d.abs hp k).issueFlush o ∧
    (∀ x, CDev.abs hp k { d with base := d.base.exec o x } = (d.abs hp k).exec o x) ∧
    (∀ ok, (d.abs hp k).mayComplete o ok ↔ d.base.mayComplete o ok) ∧
    (∀ v, d.base.survives v ↔ (d.abs hp k).survives fun x => decS hp k x (v x)) := by
  have hi := inverse hp k
  refine ⟨fun off cnt => ?_, fun off cnt buf d' h => ?_, ?_, fun x => ?_, fun ok => abs_mayComplete _ _ _,
    fun v => abs_survives hi _ _⟩
  · simp only [CDev.addRead, CDev.abs, abs_issueRead]
  · obtain ⟨out, h3, rfl, -⟩ := addWrite_ok hp h
    simp only [CDev.abs, abs_issueWrite hi, bufData_dec hp h3]
  · simp only [CDev.addFlush, CDev.abs, abs_issueFlush hi]
  · simp only [CDev.abs, abs_exec]

/-! ## C20 -/

/-- **C20** Every sector handed to the underlying device is the caller's sector encrypted, with both keys, under the
tweak made of that sector's number. -/
theorem C20_ciphertext {O : Type} [DecidableEq O] (hp : p.Lawful) {d d' : CDev O} {o : O} {off cnt : Nat} {buf : Bytes}
    (h : d.addWrite p k o off cnt buf = .ok d') :
    ∃ data, d'.base = d.base.issueWrite o off cnt data ∧
      ∀ j, j < cnt → (data (off + j)).1 =
        p.enc k.key2 k.key1 (zeros 8 ++ le 8 (off + j)) (slice buf (j * 512) 512) := by
  obtain ⟨out, h3, rfl, hl⟩ := addWrite_ok hp h
  refine ⟨_, rfl, fun j hj => ?_⟩
  have hb : (j + 1) * 512 ≤ buf.length := Nat.le_trans (Nat.mul_le_mul_right _ hj) (hl (by omega))
  have hc : covers off cnt (off + j) := ⟨by omega, by omega⟩
  simp only [bufData, hc, if_true, Nat.add_sub_cancel_left]
  rw [h3 j hj]
  simp only [encS, encSector, tweak, sectorAt, hb, dif_pos]

/-- **C20** Two different sectors never share a tweak. -/
theorem C20_tweaks_distinct {x y : Nat} (hx : x < 2 ^ 64) (hy : y < 2 ^ 64) (hne : x ≠ y) :
    (tweak x).length = 16 ∧ tweak x ≠ tweak y :=
  ⟨by simp [tweak], fun h => hne (tweak_inj hx hy h)⟩

/-- A content of sector `x` on the underlying device that is accounted for. -/
def AtRest (hp : p.Lawful) (k : Keys) (w : Nat → Sector) (es : List (Ev Sector)) (x : Nat) (v : Sector) : Prop :=
  v = w x ∨ ∃ u, wrote es x u ∧ v = encS hp k x u

theorem AtRest.mono {hp : p.Lawful} {w : Nat → Sector} {es es' : List (Ev Sector)} {x : Nat} {v : Sector}
    (h : AtRest hp k w es x v) : AtRest hp k w (es ++ es') x v := by
  rcases h with h | ⟨u, ⟨q, id, off, cnt, data, h1, h2⟩, h3⟩
  · exact .inl h
  · exact .inr ⟨u, ⟨q, id, off, cnt, data, List.mem_append_left _ h1, h2⟩, h3⟩

/-- All contents the device holds, may hold after a power loss, or is about to write satisfy `P`. -/
structure Holds {O D : Type} (d : Dev O D) (P : Nat → D → Prop) : Prop where
  vol : ∀ x, P x (d.vol x)
  pers : ∀ x v, d.pers x v → P x v
  writes : ∀ x v, d.inflight x v → P x v

theorem Holds.mono {O D : Type} {d : Dev O D} {P Q : Nat → D → Prop} (h : Holds d P) (hpq : ∀ x v, P x v → Q x v) :
    Holds d Q :=
  ⟨fun x => hpq _ _ (h.vol x), fun x v hv => hpq _ _ (h.pers x v hv), fun x v hv => hpq _ _ (h.writes x v hv)⟩

theorem Holds.exec {O D : Type} [DecidableEq O] {d : Dev O D} {P : Nat → D → Prop} (h : Holds d P) (o : O) (x : Nat) :
    Holds (d.exec o x) P := by
  unfold Dev.exec
  split
  · rename_i off cnt got hop
    split
    · refine ⟨h.vol, h.pers, fun y v hv => ?_⟩
      obtain ⟨o', a, b, data, done, h1, h2, h3⟩ := hv
      by_cases ho : o' = o
      · subst ho; simp at h1
      · simp only [upd_ne _ _ ho] at h1; exact h.writes y v ⟨o', a, b, data, done, h1, h2, h3⟩
    · exact h
  · rename_i off cnt data done hop
    split
    · rename_i hc
      refine ⟨fun y => ?_, h.pers, fun y v hv => ?_⟩
      · by_cases hy : y = x
        · subst hy; simp only [upd_same]; exact h.writes y _ ⟨o, _, _, _, _, hop, hc, rfl⟩
        · simp only [upd_ne _ _ hy]; exact h.vol y
      · obtain ⟨o', a, b, data', done', h1, h2, h3⟩ := hv
        by_cases ho : o' = o
        · subst ho
          simp only [upd_same, Option.some.injEq, Op.write.injEq] at h1
          obtain ⟨rfl, rfl, rfl, -⟩ := h1
          exact h.writes y v ⟨o', _, _, _, _, hop, h2, h3⟩
        · simp only [upd_ne _ _ ho] at h1; exact h.writes y v ⟨o', a, b, data', done', h1, h2, h3⟩
    · exact h
  · exact h

/-- **C20** At any moment of any history, power losses included, each sector of the underlying device holds its
initial content or the encryption, under its own sector number, of data that was written to that sector; and so does
everything that may be found there after a power loss. Plaintext is never stored. -/
theorem C20_only_ciphertext_at_rest (hp : p.Lawful) {w : Nat → Sector} {es : List (Ev Sector)} {d : CDev (Nat × Nat)}
    (h : CRun p k (CDev.fresh w) es d) (x : Nat) :
    (d.base.vol x = w x ∨ ∃ u, wrote es x u ∧ d.base.vol x = encS hp k x u) ∧
    ∀ v, d.base.pers x v → v = w x ∨ ∃ u, wrote es x u ∧ v = encS hp k x u := by
  have main : Holds d.base (AtRest hp k w es) := by
    generalize he : (CDev.fresh w : CDev (Nat × Nat)) = d0 at h
    induction h with
    | nil =>
      subst he
      refine ⟨fun x => .inl rfl, fun x v hv => .inl hv, fun x v hv => ?_⟩
      obtain ⟨o, a, b, data, done, h1, -⟩ := hv
      simp [CDev.fresh, Dev.fresh] at h1
    | @snoc d' d'' es es' h1 h2 ih =>
      have hr : Recorded d' := (he ▸ h1 : CRun p k (CDev.fresh w) _ _).recorded hp
      have ih := ih.mono (fun x v hv => hv.mono (es' := es'))
      cases h2 with
      | read c id off cnt h =>
        refine ⟨ih.vol, ih.pers, fun y v hv => ?_⟩
        obtain ⟨o', a, b, data, done, h1, h2, h3⟩ := hv
        simp only [CDev.addRead, Dev.issueRead, upd] at h1
        split at h1
        · simp at h1
        · exact ih.writes y v ⟨o', a, b, data, done, h1, h2, h3⟩
      | write _ c id off cnt buf h hd =>
        obtain ⟨out, h3, rfl, -⟩ := addWrite_ok hp hd
        have hnew : ∀ y, covers off cnt y →
            AtRest hp k w (es ++ [Ev.issue c id (.write off cnt (bufData buf off cnt))]) y (bufData out off cnt y) := by
          intro y hc
          refine .inr ⟨bufData buf off cnt y, ⟨c, id, off, cnt, _, by simp, hc, rfl⟩, ?_⟩
          have := h3 (y - off) (by obtain ⟨_, _⟩ := hc; omega)
          simp only [bufData, hc, if_true, this]
          rw [show off + (y - off) = y by obtain ⟨_, _⟩ := hc; omega]
        refine ⟨ih.vol, fun y v hv => ?_, fun y v hv => ?_⟩
        · rcases hv with hv | ⟨hc, rfl⟩
          · exact ih.pers y v hv
          · exact hnew y hc
        · obtain ⟨o', a, b, data, done, h1, h2, rfl⟩ := hv
          by_cases ho : o' = (c, id)
          · subst ho
            rw [ops_issueWrite_same] at h1
            simp only [Option.some.injEq, Op.write.injEq] at h1
            obtain ⟨rfl, rfl, rfl, -⟩ := h1
            exact hnew y h2
          · exact ih.writes y _ ⟨o', a, b, data, done, (issueWrite_write ho).1 h1, h2, rfl⟩
      | flush c id h =>
        refine ⟨ih.vol, ih.pers, fun y v hv => ?_⟩
        obtain ⟨o', a, b, data, done, h1, h2, h3⟩ := hv
        simp only [CDev.addFlush, Dev.issueFlush, upd] at h1
        split at h1
        · simp at h1
        · exact ih.writes y v ⟨o', a, b, data, done, h1, h2, h3⟩
      | exec o x => exact ih.exec o x
      | done _ c id ok buf h hd =>
        obtain ⟨buf', h1, -⟩ := complete_ok (k := k) hp hr h
        rw [h1] at hd
        simp only [Except.ok.injEq, Prod.mk.injEq] at hd
        obtain ⟨rfl, -⟩ := hd
        refine ⟨ih.vol, fun y v hv => ih.pers y v hv.1, fun y v hv => ?_⟩
        obtain ⟨o', a, b, data, done, h1, h2, h3⟩ := hv
        simp only [Dev.complete, upd] at h1
        split at h1
        · simp at h1
        · exact ih.writes y v ⟨o', a, b, data, done, h1, h2, h3⟩
      | crash v h =>
        refine ⟨fun y => ih.pers y _ (h y), fun y u hu => hu ▸ ih.pers y _ (h y), fun y u hu => ?_⟩
        obtain ⟨o', a, b, data, done, h1, -⟩ := hu
        simp [CDev.fresh, Dev.fresh] at h1
  exact ⟨main.vol x, main.pers x⟩

/-! ## C21 -/

variable {g : Aead} {kek : Kek}

theorem gcm_round_trip (hg : g.Lawful) {nonce key aad pt ct : Bytes} (hn : nonce.length = 12)
    (h : gcmEncrypt g nonce key aad pt = .ok ct) : gcmDecrypt g key aad ct = .ok pt ∧ ct.length = pt.length + 28 := by
  simp only [gcmEncrypt, newCipher, bind, Except.bind] at h
  split at h
  · simp at h
  · rename_i hk
    split at hk
    · rename_i hk32
      split at h
      · rename_i c hs
        simp only [pure, Except.pure, Except.ok.injEq] at h
        subst h
        have hl := hg.sealAt_len _ _ _ _ _ hs
        have ho := hg.openAt_sealAt _ _ _ _ _ hs
        have h1 : (nonce ++ c).take 12 = nonce := by rw [← hn]; simp
        have h2 : (nonce ++ c).drop 12 = c := by rw [← hn]; simp
        have h3 : ¬ (nonce ++ c).length < 28 := by simp [hn, hl]; omega
        refine ⟨?_, by simp [hn, hl]; omega⟩
        simp only [gcmDecrypt, newCipher, hk32, bind, Except.bind, h1, h2, ho, if_true, Nat.reduceAdd, if_neg h3, pure, Except.pure]
      · simp [throw, throwThe, MonadExceptOf.throw] at h
    · simp at hk

/-- **C21** Unwrapping what was wrapped under the same KEK and associated data gives the data back (disk keys, PSK
secrets, credentials). -/
theorem C21_unwrap_wrap (hg : g.Lawful) {nonce pt ct : Bytes} (hn : nonce.length = 12)
    (h : kek.encryptData g nonce pt = .ok ct) : kek.decryptData g ct = .ok pt := by
  unfold Kek.encryptData at h
  unfold Kek.decryptData
  cases hm : kek.method with
  | none => simp only [hm, Except.ok.injEq] at h ⊢; exact h.symm
  | aes256Gcm =>
    simp only [hm, bind, Except.bind] at h ⊢
    cases hc : kek.context with
    | error e => simp [hc] at h
    | ok ka => simp only [hc] at h ⊢; exact (gcm_round_trip hg hn h).1

/-- **C21** Keys of the wrong size are never accepted, by any of the three ways to load a disk key. -/
theorem C21_key_size {ks : Keys} {a b : Bytes}
    (h : Keys.new a b = .ok ks ∨ kek.decryptXts g a b = .ok ks ∨ Keys.unwrap g kek a = .ok ks) :
    ks.key1.length = 32 ∧ ks.key2.length = 32 := by
  have h32 : ∀ {x y : Bytes}, ensure32 x = .ok y → y.length = 32 := by
    intro x y h
    simp only [ensure32] at h
    split at h
    · simp only [Except.ok.injEq] at h; subst h; assumption
    · simp at h
  have pair : ∀ {x y : Bytes}, (do let k1 ← ensure32 x; let k2 ← ensure32 y; return { key1 := k1, key2 := k2 } : Except Err Keys) = .ok ks →
      ks.key1.length = 32 ∧ ks.key2.length = 32 := by
    intro x y h
    simp only [bind, Except.bind] at h
    cases e1 : ensure32 x with
    | error e => simp [e1] at h
    | ok k1 =>
      cases e2 : ensure32 y with
      | error e => simp [e1, e2] at h
      | ok k2 =>
        simp only [e1, e2, pure, Except.pure, Except.ok.injEq] at h
        subst h; exact ⟨h32 e1, h32 e2⟩
  rcases h with h | h | h
  · exact pair h
  · unfold Kek.decryptXts at h
    cases hm : kek.method with
    | none => simp only [hm] at h; exact pair h
    | aes256Gcm =>
      simp only [hm, bind, Except.bind] at h
      cases hc : kek.context with
      | error e => simp [hc] at h
      | ok ka =>
        cases e1 : gcmDecrypt g ka.1 ka.2 a with
        | error e => simp [hc, e1] at h
        | ok p1 =>
          cases e2 : gcmDecrypt g ka.1 ka.2 b with
          | error e => simp [hc, e1, e2] at h
          | ok p2 => simp only [hc, e1, e2] at h; exact pair h
  · simp only [Keys.unwrap, bind, Except.bind] at h
    cases e1 : kek.decryptData g a with
    | error e => simp [e1] at h
    | ok d =>
      simp only [e1] at h
      by_cases hl : d.length = 64
      · simp only [hl, ne_eq, not_true_eq_false, if_false, pure, Except.pure, Except.ok.injEq] at h
        subst h; simp [hl]
      · simp [hl, throw, throwThe, MonadExceptOf.throw] at h

/-- **C21** The disk key survives being wrapped as a pair and as one combined blob, and creating it from 32-byte halves
always works. -/
theorem C21_disk_key (hg : g.Lawful) {n1 n2 k1 k2 : Bytes} (h1 : n1.length = 12) (h2 : n2.length = 12) {ks : Keys}
    (hk : Keys.new k1 k2 = .ok ks) :
    (∀ c1 c2, kek.encryptXts g n1 n2 ks = .ok (c1, c2) → kek.decryptXts g c1 c2 = .ok ks) ∧
    (∀ c, ks.wrap g kek n1 = .ok c → Keys.unwrap g kek c = .ok ks) := by
  have hkl : ks.key1.length = 32 ∧ ks.key2.length = 32 := C21_key_size (g := g) (kek := kek) (.inl hk)
  refine ⟨fun c1 c2 h => ?_, fun c h => ?_⟩
  · unfold Kek.encryptXts at h
    unfold Kek.decryptXts
    cases hm : kek.method with
    | none =>
      simp only [hm, Except.ok.injEq, Prod.mk.injEq] at h ⊢
      obtain ⟨rfl, rfl⟩ := h
      simp [ensure32, hkl.1, hkl.2, bind, Except.bind, pure, Except.pure]
    | aes256Gcm =>
      simp only [hm, bind, Except.bind] at h ⊢
      cases hc : kek.context with
      | error e => simp [hc] at h
      | ok ka =>
        simp only [hc] at h ⊢
        cases e1 : gcmEncrypt g n1 ka.1 ka.2 ks.key1 with
        | error e => simp [e1] at h
        | ok a =>
          cases e2 : gcmEncrypt g n2 ka.1 ka.2 ks.key2 with
          | error e => simp [e1, e2] at h
          | ok b =>
            simp only [e1, e2, pure, Except.pure, Except.ok.injEq, Prod.mk.injEq] at h
            obtain ⟨rfl, rfl⟩ := h
            simp [(gcm_round_trip hg h1 e1).1, (gcm_round_trip hg h2 e2).1, ensure32, hkl.1, hkl.2, pure, Except.pure]
  · have := C21_unwrap_wrap hg h1 h
    simp only [Keys.unwrap, this, bind, Except.bind, List.length_append, hkl.1, hkl.2]
    have t1 : (ks.key1 ++ ks.key2).take 32 = ks.key1 := by rw [← hkl.1]; simp
    have t2 : (ks.key1 ++ ks.key2).drop 32 = ks.key2 := by rw [← hkl.1]; simp
    simp [pure, Except.pure, t1, t2]

/-- **C21** A blob shorter than nonce plus tag is rejected, whatever the AEAD does; so is any blob when the KEK is not
32 bytes long, or when the key or the associated name is missing. -/
theorem C21_rejects (hm : kek.method = .aes256Gcm) (ct : Bytes)
    (h : ct.length < 28 ∨ kek.key = none ∨ kek.auth = none ∨ ∃ key, kek.key = some key ∧ key.length ≠ 32) :
    ∃ e, kek.decryptData g ct = .error e := by
  unfold Kek.decryptData
  simp only [hm, bind, Except.bind]
  cases hc : kek.context with
  | error e => exact ⟨e, rfl⟩
  | ok ka =>
    simp only [Kek.context] at hc
    cases hk : kek.key with
    | none => rw [hk] at hc; simp at hc
    | some key =>
      cases ha : kek.auth with
      | none => rw [hk, ha] at hc; simp at hc
      | some auth =>
        rw [hk, ha] at hc h
        simp only [Except.ok.injEq] at hc
        subst hc
        simp only [gcmDecrypt, newCipher, bind, Except.bind]
        by_cases h32 : key.length = 32
        · have : ct.length < 12 + 16 := by simpa [h32] using h
          exact ⟨.param, by simp [h32, this, throw, throwThe, MonadExceptOf.throw]⟩
        · exact ⟨.param, by simp [h32]⟩

/-- **C21** Without a KEK the bytes are used as they are. -/
theorem C21_no_kek (hm : kek.method = .none) (nonce b : Bytes) :
    kek.encryptData g nonce b = .ok b ∧ kek.decryptData g b = .ok b := by
  simp [Kek.encryptData, Kek.decryptData, hm]

/-! ## Concrete cases -/

/-- A toy cipher that depends on the tweak: every byte is shifted by the sum of the tweak bytes. -/
def toy : Xts where
  enc _ _ t s := s.map (· + t.sum)
  dec _ _ t s := s.map (· - t.sum)

theorem toy_lawful : toy.Lawful where
  enc_len _ _ _ s h := by simpa [toy] using h
  dec_len _ _ _ s h := by simpa [toy] using h
  dec_enc _ _ t s _ := by
    have : (fun b : UInt8 => b + t.sum - t.sum) = id := by funext b; simp
    simp only [toy, List.map_map, Function.comp_def, this, List.map_id]
  enc_dec _ _ t s _ := by
    have : (fun b : UInt8 => b - t.sum + t.sum) = id := by funext b; simp
    simp only [toy, List.map_map, Function.comp_def, this, List.map_id]

def toyKeys : Keys := { key1 := zeros 32, key2 := zeros 32 }

/-- C19, C20: a write of two sectors followed by a read of the second, on the toy cipher, is a run of the model and
satisfies the hypotheses of `C19_read_after_write`; the ciphertext differs from the plaintext. -/
example (buf : Bytes) (hb : buf.length = 1024) : ∃ (d : CDev (Nat × Nat)) (out : List (Option Sector)),
    CRun toy toyKeys (CDev.fresh fun _ => zsec)
      (([] ++ Ev.issue 0 3 (.write 5 2 (bufData buf 5 2)) :: [] ++ [Ev.resp 0 3 true []]) ++ [] ++
        (Ev.issue 1 3 (.read 6 1) :: [] ++ [Ev.resp 1 3 true out])) d ∧
      out[6 - 6]? = some (some (sectorAt buf (6 - 5))) := by
  have hp := toy_lawful
  let d0 : CDev (Nat × Nat) := CDev.fresh fun _ => zsec
  have r0 : CRun toy toyKeys d0 [] d0 := .nil _
  obtain ⟨d1, e1⟩ := (C19_total hp r0 (0, 3)).1 5 2 buf (by omega)
  have r1 := r0.snoc (CStep.write _ d1 0 3 5 2 buf rfl e1)
  have r2 := (r1.snoc (CStep.exec d1 (0, 3) 5)).snoc (CStep.exec _ (0, 3) 6)
  obtain ⟨out1, -, rfl, -⟩ := addWrite_ok hp e1
  have m1 : ((d0.base.issueWrite (0, 3) 5 2 (bufData out1 5 2)).exec (0, 3) 5 |>.exec (0, 3) 6).mayComplete (0, 3) true := by
    refine ⟨_, rfl, fun _ x hx => ?_⟩
    have : x = 5 ∨ x = 6 := by obtain ⟨_, _⟩ := hx; omega
    rcases this with rfl | rfl <;> rfl
  obtain ⟨b1, h1, h2⟩ := complete_ok (k := toyKeys) hp (r2.recorded hp) m1
  have r3 := r2.snoc (CStep.done _ _ 0 3 true b1 m1 h1)
  have r4 := r3.snoc (CStep.read _ 1 3 6 1 rfl)
  have r5 := r4.snoc (CStep.exec _ (1, 3) 6)
  have m2 : Dev.mayComplete (Dev.exec (Dev.issueRead (Dev.complete
      ((d0.base.issueWrite (0, 3) 5 2 (bufData out1 5 2)).exec (0, 3) 5 |>.exec (0, 3) 6) (0, 3) true) (1, 3) 6 1) (1, 3) 6)
      (1, 3) true := by
    refine ⟨_, rfl, fun _ x hx => ?_⟩
    have : x = 6 := by obtain ⟨_, _⟩ := hx; omega
    subst this; simp
  obtain ⟨b2, h3, h4⟩ := complete_ok (k := toyKeys) hp (r5.recorded hp) m2
  have r6 := r5.snoc (CStep.done _ _ 1 3 true b2 m2 h3)
  have hb1 : sectorsOf b1 = [] := by rw [h2]; rfl
  rw [hb1] at r6
  refine ⟨_, sectorsOf b2, r6, ?_⟩
  refine C19_read_after_write (x := 6) (off := 5) (cnt := 2) (off' := 6) (cnt' := 1) (e0 := []) (e1 := []) (e2 := []) (e3 := []) hp r6 rfl ⟨by omega, by omega⟩ ⟨by omega, by omega⟩ ?_ ?_ ?_ ?_ ?_ ?_ ?_
  · intro a b q id off cnt data h; simp at h
  all_goals simp [quiet, unanswered]

example : tweak 0x0102030405060708 = [0, 0, 0, 0, 0, 0, 0, 0, 8, 7, 6, 5, 4, 3, 2, 1] := by rfl

/-- A toy AEAD with a 16-byte tag. -/
def toyAead : Aead where
  sealAt _ _ _ pt := some (pt ++ zeros 16)
  openAt _ _ _ ct := some (ct.take (ct.length - 16))

theorem toyAead_lawful : toyAead.Lawful where
  openAt_sealAt key nonce aad pt ct h := by
    simp only [toyAead, Option.some.injEq] at h ⊢; subst h; simp
  sealAt_len key nonce aad pt ct h := by
    simp only [toyAead, Option.some.injEq] at h; subst h; simp

/-- C21: wrapping really produces a 92-byte blob for the combined key, and unwrapping it returns the key. -/
example : ∃ ks c, Keys.new (zeros 32) (zeros 32) = .ok ks ∧
    ks.wrap toyAead ⟨.aes256Gcm, some (zeros 32), some [1]⟩ (zeros 12) = .ok c ∧ c.length = 92 ∧
    Keys.unwrap toyAead ⟨.aes256Gcm, some (zeros 32), some [1]⟩ c = .ok ks := by
  refine ⟨⟨zeros 32, zeros 32⟩, zeros 12 ++ (zeros 32 ++ zeros 32 ++ zeros 16), rfl, rfl, by simp, ?_⟩
  exact (C21_disk_key toyAead_lawful (n1 := zeros 12) (n2 := zeros 12) (k1 := zeros 32) (k2 := zeros 32) rfl rfl rfl).2 _ rfl

end Verif.Crypt
