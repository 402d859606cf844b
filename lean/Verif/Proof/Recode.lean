import Verif.Model.Stack
import Verif.Proof.Lag
import Verif.Proof.DiskTrace
import Verif.Proof.Crypt
import Verif.Proof.StackSim

/-! # A disk seen through a recoding of its sectors

`d` is a disk, `u` what somebody sees who applies `f x` to the contents of sector `x`. Nothing is asked of `f`; what may survive a
power loss below may do so above. -/

set_option maxRecDepth 8000

namespace Verif.Disk

variable {A B : Type}

inductive CodeOp (f : Nat → A → B) : Option (Op A) → Option (Op B) → Prop where
  | none : CodeOp f none none
  | read (off cnt got got') (h : ∀ x, got' x = (got x).map (f x)) : CodeOp f (some (.read off cnt got)) (some (.read off cnt got'))
  | write (off cnt data data' done) (h : ∀ x, covers off cnt x → data' x = f x (data x)) :
      CodeOp f (some (.write off cnt data done)) (some (.write off cnt data' done))
  | flush (s : Nat → A → Prop) (s' : Nat → B → Prop) (h : ∀ x v, s x v → s' x (f x v)) : CodeOp f (some (.flush s)) (some (.flush s'))

structure Code (f : Nat → A → B) (d : Disk A) (u : Disk B) : Prop where
  vol : ∀ x, u.vol x = f x (d.vol x)
  pers : ∀ x w, d.pers x w → u.pers x (f x w)
  ops : ∀ p, CodeOp f (d.ops p) (u.ops p)

variable {f : Nat → A → B} {d : Disk A} {u : Disk B}

theorem Code.fresh (v : Nat → A) : Code f (Dev.fresh v) (Dev.fresh fun x => f x (v x)) :=
  ⟨fun _ => rfl, fun x w h => by rw [show w = v x from h]; rfl, fun _ => .none⟩

theorem Code.survives (h : Code f d u) {v : Nat → A} (hs : d.survives v) : u.survives fun x => f x (v x) :=
  fun x => h.pers x _ (hs x)

theorem CodeOp.none_iff {a : Option (Op A)} {b : Option (Op B)} (h : CodeOp f a b) : a = Option.none ↔ b = Option.none := by
  cases h <;> simp

theorem Code.inflight (h : Code f d u) {x : Nat} {v : A} (hv : d.inflight x v) : u.inflight x (f x v) := by
  obtain ⟨o, off, cnt, data, done, h1, h2, rfl⟩ := hv
  have := h.ops o
  rw [h1] at this
  generalize hu : u.ops o = y at this
  cases this with
  | write _ _ _ data' _ hd => exact ⟨o, off, cnt, data', done, hu, h2, (hd x h2).symm⟩

theorem CodeOp.addSnap {a : Option (Op A)} {b : Option (Op B)} (h : CodeOp f a b) {off cnt : Nat} {data : Nat → A} {data' : Nat → B}
    (hd : ∀ x, covers off cnt x → data' x = f x (data x)) :
    CodeOp f (a.map (Op.addSnap off cnt data)) (b.map (Op.addSnap off cnt data')) := by
  cases h with
  | none => exact .none
  | read _ _ _ _ h => exact .read _ _ _ _ h
  | write _ _ _ _ _ h => exact .write _ _ _ _ _ h
  | flush s s' h => exact .flush _ _ fun x v hx => hx.imp (h x v) fun ⟨h1, h2⟩ => ⟨h1, by rw [h2, hd x h1]⟩

theorem CodeOp.upd {a : Nat × Nat → Option (Op A)} {b : Nat × Nat → Option (Op B)} (h : ∀ p, CodeOp f (a p) (b p)) (o : Nat × Nat)
    {x : Option (Op A)} {y : Option (Op B)} (hxy : CodeOp f x y) : ∀ p, CodeOp f (Disk.upd a o x p) (Disk.upd b o y p) := by
  intro p
  by_cases e : p = o
  · subst e; rw [upd_same, upd_same]; exact hxy
  · rw [upd_ne _ _ e, upd_ne _ _ e]; exact h p

theorem Code.issueRead (h : Code f d u) (o : Nat × Nat) (off cnt : Nat) : Code f (Dev.issueRead d o off cnt) (Dev.issueRead u o off cnt) :=
  ⟨h.vol, h.pers, CodeOp.upd h.ops o (.read _ _ _ _ fun _ => rfl)⟩

theorem Code.issueWrite (h : Code f d u) (o : Nat × Nat) (off cnt : Nat) {data : Nat → A} {data' : Nat → B}
    (hd : ∀ x, covers off cnt x → data' x = f x (data x)) : Code f (Dev.issueWrite d o off cnt data) (Dev.issueWrite u o off cnt data') :=
  ⟨h.vol, fun x w hw => hw.imp (h.pers x w) fun ⟨h1, h2⟩ => ⟨h1, by rw [h2, hd x h1]⟩,
    CodeOp.upd (fun p => (h.ops p).addSnap hd) o (.write _ _ _ _ _ hd)⟩

theorem Code.issueFlush (h : Code f d u) (o : Nat × Nat) : Code f (Dev.issueFlush d o) (Dev.issueFlush u o) :=
  ⟨h.vol, h.pers, CodeOp.upd h.ops o (.flush _ _ fun x v hv => hv.imp (fun e => by rw [e, h.vol]) h.inflight)⟩

theorem Code.exec (h : Code f d u) (o : Nat × Nat) (x : Nat) : Code f (Dev.exec d o x) (Dev.exec u o x) := by
  have ho := h.ops o
  unfold Dev.exec
  generalize hd : d.ops o = a at ho
  generalize hu : u.ops o = b at ho
  cases ho with
  | none => exact h
  | flush => exact h
  | read off cnt got got' hg =>
    simp only
    split
    · refine ⟨h.vol, h.pers, CodeOp.upd h.ops o (.read _ _ _ _ fun y => ?_)⟩
      by_cases e : y = x
      · subst e; rw [upd_same, upd_same, h.vol]; rfl
      · rw [upd_ne _ _ e, upd_ne _ _ e]; exact hg y
    · exact h
  | write off cnt data data' done hg =>
    simp only
    split
    · rename_i hc
      refine ⟨fun y => ?_, h.pers, CodeOp.upd h.ops o (.write _ _ _ _ _ hg)⟩
      show upd u.vol x (data' x) y = f y (upd d.vol x (data x) y)
      by_cases e : y = x
      · subst e; rw [upd_same, upd_same]; exact hg y hc
      · rw [upd_ne _ _ e, upd_ne _ _ e]; exact h.vol y
    · exact h

theorem Code.mayComplete (h : Code f d u) {o : Nat × Nat} {ok : Bool} (hm : Dev.mayComplete d o ok) : Dev.mayComplete u o ok := by
  obtain ⟨op, h1, h2⟩ := hm
  have ho := h.ops o
  rw [h1] at ho
  generalize hu : u.ops o = b at ho
  cases ho with
  | read off cnt got got' hg =>
    exact ⟨_, hu, fun hk x hx => by rw [hg x]; exact fun e => h2 hk x hx (Option.map_eq_none_iff.1 e)⟩
  | write off cnt data data' done hg => exact ⟨_, hu, fun hk x hx => h2 hk x hx⟩
  | flush => exact ⟨_, hu, fun _ => trivial⟩

theorem Code.complete (h : Code f d u) (o : Nat × Nat) (ok : Bool) : Code f (Dev.complete d o ok) (Dev.complete u o ok) := by
  refine ⟨h.vol, fun x w hw => ⟨h.pers x w hw.1, fun snap hs hk => ?_⟩, CodeOp.upd h.ops o .none⟩
  have ho := h.ops o
  rw [hs] at ho
  generalize hd : d.ops o = a at ho
  cases ho with
  | flush s _ hf => exact hf x w (hw.2 s hd hk)

end Verif.Disk

namespace Verif.Stack
open Verif Verif.Disk Verif.Crypt

variable {p : Xts} {k : Keys}

/-- What the encrypting channel makes of the contents of a sector. -/
def plain (hp : p.Lawful) (k : Keys) (x : Nat) (s : Sector) : Bytes := (decS hp k x s).1

/-- The table of recorded reads is right. -/
def Noted (rd : Nat × Nat → Option (Nat × Nat)) (d : Disk Sector) : Prop :=
  ∀ o off cnt, rd o = some (off, cnt) ↔ ∃ got, d.ops o = some (.read off cnt got)

theorem Noted.upd {rd : Nat × Nat → Option (Nat × Nat)} {d d' : Disk Sector} (h : Noted rd d) (o : Nat × Nat)
    (ho : ∀ o', o' ≠ o → ∀ off cnt, (∃ got, d'.ops o' = some (.read off cnt got)) ↔ ∃ got, d.ops o' = some (.read off cnt got))
    {e : Option (Nat × Nat)} (he : ∀ off cnt, e = some (off, cnt) ↔ ∃ got, d'.ops o = some (.read off cnt got)) : Noted (upd rd o e) d' := by
  intro o' off cnt
  by_cases hne : o' = o
  · subst hne; rw [upd_same]; exact he off cnt
  · rw [upd_ne _ _ hne, ho o' hne]; exact h o' off cnt

theorem upd_self {α β : Type} [DecidableEq α] (g : α → β) (a : α) {b : β} (h : g a = b) : upd g a b = g := by
  funext x
  by_cases e : x = a
  · subst e; rw [upd_same, h]
  · rw [upd_ne _ _ e]

theorem noted_exec {rd : Nat × Nat → Option (Nat × Nat)} {d : Disk Sector} (h : Noted rd d) (o : Nat × Nat) (x : Nat) :
    Noted rd (Dev.exec d o x) := by
  intro o' off cnt
  rw [h o' off cnt]
  have h1 := kinds_exec d o o' x
  constructor
  · rintro ⟨g, hg⟩
    exact kinds_read (by rw [h1, kinds_of_ops hg]; rfl)
  · rintro ⟨g, hg⟩
    exact kinds_read (by rw [← h1, kinds_of_ops hg]; rfl)

theorem code_silent {A B : Type} {f : Nat → A → B} {d d' : Disk A} {u : Disk B} (h : Code f d u) (hr : Disk.Run d [] d') :
    ∃ u', Code f d' u' ∧ ∀ {u0 es}, Disk.Run u0 es u → Disk.Run u0 es u' := by
  refine run_nil_ind hr rfl (fun d' => ∃ u', Code f d' u' ∧ ∀ {u0 es}, Disk.Run u0 es u → Disk.Run u0 es u') ⟨u, h, fun h => h⟩ ?_
  rintro d o x ⟨u', h1, h2⟩
  refine ⟨_, h1.exec o x, fun h => ?_⟩
  have := (h2 h).snoc (.exec u' o x)
  rw [List.append_nil] at this
  exact this

theorem noted_silent {rd : Nat × Nat → Option (Nat × Nat)} {d d' : Disk Sector} (h : Noted rd d) (hr : Disk.Run d [] d') : Noted rd d' :=
  run_nil_ind hr rfl (fun d => Noted rd d) h fun _ o x h => noted_exec h o x

/-- The slices of an encrypted buffer. -/
theorem encrypt_slices (hp : p.Lawful) {buf buf' : Bytes} {off cnt : Nat} (he : encrypt p k buf off cnt = .ok buf') {x : Nat}
    (hx : covers off cnt x) : plain hp k x (bufData buf' off cnt x) = slice buf ((x - off) * 512) 512 := by
  have hj : x - off < cnt := by obtain ⟨h1, h2⟩ := hx; omega
  have hl : cnt * 512 ≤ buf.length := by
    rcases Nat.lt_or_ge buf.length (cnt * 512) with hl | hl
    · have := cryptLoop_short (encSector p k) (fun x s hs => hp.enc_len _ _ _ _ hs) off cnt 0 buf (by omega) (by omega)
      rw [encrypt, this] at he; simp at he
    · exact hl
  obtain ⟨out, h1, h2, h3, h4⟩ := encrypt_ok (k := k) (start := off) hp hl
  rw [h1, Except.ok.injEq] at he
  subst he
  unfold plain bufData
  rw [if_pos hx, h3 _ hj, show off + (x - off) = x by obtain ⟨h1, h2⟩ := hx; omega, (inverse hp k).1]
  unfold sectorAt
  rw [dif_pos]
  have := Nat.mul_le_mul_right 512 (show x - off + 1 ≤ cnt by omega)
  omega

/-- The slices of a decrypted read. -/
theorem decrypt_slices (hp : p.Lawful) {data : List (Option Sector)} {out : Bytes} {off cnt : Nat} (hlen : data.length = cnt)
    (hd : decrypt p k (readBuf data) off cnt = .ok out) {j : Nat} (hj : j < cnt) {s : Sector} (hs : data[j]? = some (some s)) :
    slice out (j * 512) 512 = plain hp k (off + j) s := by
  have hl : (readBuf data).length = cnt * 512 := by rw [readBuf_length, hlen]
  obtain ⟨out', h1, h2, h3, -⟩ := decrypt_ok (k := k) (start := off) hp (Nat.le_of_eq hl.symm)
  rw [h1, Except.ok.injEq] at hd
  subst hd
  have := h3 j hj
  rw [readBuf_sectorAt _ j s hs] at this
  unfold plain
  rw [← this]
  unfold sectorAt
  rw [dif_pos]
  rw [h2, hl]
  exact Nat.mul_le_mul_right 512 (by omega)

theorem crypt_step (hp : p.Lawful) {rd rd' : Nat × Nat → Option (Nat × Nat)} {es' : List (Ev Bytes)} {ws' : List (Ev Sector)}
    (h : CryptStep p k rd es' ws' rd') {d d' : Disk Sector} (hr : Disk.Run d ws' d') {u0 u : Disk Bytes} {es : List (Ev Bytes)}
    (hc : Code (plain hp k) d u) (hn : Noted rd d) (hu : Disk.Run u0 es u) :
    ∃ u', Disk.Run u0 (es ++ es') u' ∧ Code (plain hp k) d' u' ∧ Noted rd' d' := by
  cases h with
  | read q id off cnt =>
    obtain ⟨d1, h1, h2, h3⟩ := issue_run hr
    obtain ⟨u1, c1, g1⟩ := code_silent hc h1
    have n1 := noted_silent hn h1
    have s1 := (g1 hu).snoc (.issue u1 q id (.read off cnt) ((c1.ops _).none_iff.1 h2))
    obtain ⟨u2, c2, g2⟩ := code_silent (c1.issueRead (q, id) off cnt) h3
    refine ⟨u2, g2 s1, c2, noted_silent (n1.upd (q, id) (fun o' hne a b => ?_) fun a b => ?_) h3⟩
    · simp only [Disk.issue, Dev.issueRead, upd_ne _ _ hne]
    · simp only [Disk.issue, Dev.issueRead, upd_same, Option.some.injEq, Prod.mk.injEq, Op.read.injEq]
      exact ⟨fun ⟨h1, h2⟩ => ⟨_, h1, h2, rfl⟩, fun ⟨_, h1, h2, _⟩ => ⟨h1, h2⟩⟩
  | write q id off cnt data buf buf' hb he =>
    obtain ⟨d1, h1, h2, h3⟩ := issue_run hr
    obtain ⟨u1, c1, g1⟩ := code_silent hc h1
    have n1 := noted_silent hn h1
    have s1 := (g1 hu).snoc (.issue u1 q id (.write off cnt data) ((c1.ops _).none_iff.1 h2))
    have hdata : ∀ x, covers off cnt x → data x = plain hp k x (bufData buf' off cnt x) := fun x hx => by
      rw [encrypt_slices hp he hx]
      have := hb (x - off) (by obtain ⟨h1, h2⟩ := hx; omega)
      rwa [show off + (x - off) = x by obtain ⟨h1, h2⟩ := hx; omega] at this
    obtain ⟨u2, c2, g2⟩ := code_silent (c1.issueWrite (q, id) off cnt hdata) h3
    have hnone : rd (q, id) = none := by
      rcases e : rd (q, id) with _ | ⟨a, b⟩
      · rfl
      · obtain ⟨g, hg⟩ := (n1 _ a b).1 e
        rw [h2] at hg; cases hg
    refine ⟨u2, g2 s1, c2, noted_silent ?_ h3⟩
    rw [← upd_self rd (q, id) hnone]
    refine n1.upd (q, id) (fun o' hne a b => ?_) fun a b => ?_
    · simp only [Disk.issue]
      rw [ops_issueWrite_ne _ _ _ _ hne]
      simp only [Option.map_eq_some_iff, addSnap_read]
      exact ⟨fun ⟨g, _, hg, e⟩ => ⟨g, by rw [hg, e]⟩, fun ⟨g, hg⟩ => ⟨g, _, hg, rfl⟩⟩
    · simp [Disk.issue, Dev.issueWrite, upd_same]
  | flush q id =>
    obtain ⟨d1, h1, h2, h3⟩ := issue_run hr
    obtain ⟨u1, c1, g1⟩ := code_silent hc h1
    have n1 := noted_silent hn h1
    have s1 := (g1 hu).snoc (.issue u1 q id .flush ((c1.ops _).none_iff.1 h2))
    obtain ⟨u2, c2, g2⟩ := code_silent (c1.issueFlush (q, id)) h3
    have hnone : rd (q, id) = none := by
      rcases e : rd (q, id) with _ | ⟨a, b⟩
      · rfl
      · obtain ⟨g, hg⟩ := (n1 _ a b).1 e
        rw [h2] at hg; cases hg
    refine ⟨u2, g2 s1, c2, noted_silent ?_ h3⟩
    rw [← upd_self rd (q, id) hnone]
    refine n1.upd (q, id) (fun o' hne a b => ?_) fun a b => ?_
    · simp only [Disk.issue, Dev.issueFlush, upd_ne _ _ hne]
    · simp [Disk.issue, Dev.issueFlush, upd_same]
  | readDone q id off cnt data out hrd hdec =>
    obtain ⟨d1, h1, h2, h3, h4⟩ := resp_run hr
    obtain ⟨u1, c1, g1⟩ := code_silent hc h1
    have n1 := noted_silent hn h1
    obtain ⟨got, hg⟩ := (n1 _ _ _).1 hrd
    have s1 := (g1 hu).snoc (.respond u1 q id true (c1.mayComplete h2))
    obtain ⟨u2, c2, g2⟩ := code_silent (c1.complete (q, id) true) h4
    have hres : data = (List.range cnt).map fun i => got (off + i) := by rw [h3]; simp [Dev.result, hg]
    have hur : Dev.result u1 (q, id) true = (List.range cnt).map fun j => some (slice out (j * 512) 512) := by
      have ho := c1.ops (q, id)
      rw [hg] at ho
      generalize hu1 : u1.ops (q, id) = y at ho
      cases ho with
      | read _ _ _ got' hgg =>
        simp only [Dev.result, hu1, if_true]
        apply List.map_congr_left
        intro j hj
        have hj := List.mem_range.1 hj
        obtain ⟨op, o1, o2⟩ := h2
        rw [hg, Option.some.injEq] at o1
        subst o1
        obtain ⟨s, hs⟩ := Option.ne_none_iff_exists'.1 (o2 rfl (off + j) ⟨by omega, by omega⟩)
        rw [hgg, hs, decrypt_slices hp (by rw [hres]; simp) hdec hj (s := s) (by rw [hres]; simp [hj, hs])]
        rfl
    rw [hur] at s1
    refine ⟨u2, g2 s1, c2, noted_silent (n1.upd (q, id) (fun o' hne a b => ?_) fun a b => ?_) h4⟩
    · simp only [Dev.complete, upd_ne _ _ hne]
    · simp [Dev.complete]
  | done q id ok data hrd =>
    obtain ⟨d1, h1, h2, h3, h4⟩ := resp_run hr
    obtain ⟨u1, c1, g1⟩ := code_silent hc h1
    have n1 := noted_silent hn h1
    have s1 := (g1 hu).snoc (.respond u1 q id ok (c1.mayComplete h2))
    obtain ⟨u2, c2, g2⟩ := code_silent (c1.complete (q, id) ok) h4
    have hur : Dev.result u1 (q, id) ok = [] := by
      have ho := c1.ops (q, id)
      generalize hd1 : d1.ops (q, id) = x at ho
      generalize hu1 : u1.ops (q, id) = y at ho
      cases ho with
      | read off cnt got got' hgg =>
        cases ok with
        | false => simp [Dev.result, hu1]
        | true =>
          have := (n1 (q, id) off cnt).2 ⟨got, hd1⟩
          rw [hrd rfl] at this; cases this
      | none => simp [Dev.result, hu1]
      | write => simp [Dev.result, hu1]
      | flush => simp [Dev.result, hu1]
    rw [hur] at s1
    refine ⟨u2, g2 s1, c2, noted_silent (n1.upd (q, id) (fun o' hne a b => ?_) fun a b => ?_) h4⟩
    · simp only [Dev.complete, upd_ne _ _ hne]
    · simp [Dev.complete]
  | crash =>
    obtain ⟨d1, d2, h1, h2, h3⟩ := run_single hr
    obtain ⟨u1, c1, g1⟩ := code_silent hc h1
    generalize he : [Ev.crash] = ws at h2
    cases h2 with
    | issue => cases he
    | exec => cases he
    | respond => cases he
    | crash v hv =>
      have s1 := (g1 hu).snoc (.crash u1 _ (c1.survives hv))
      obtain ⟨u2, c2, g2⟩ := code_silent (Code.fresh (f := plain hp k) v) h3
      exact ⟨u2, g2 s1, c2, noted_silent (fun o a b => by simp [Dev.fresh]) h3⟩

/-- **The encrypting channel over a plain disk is a plain disk with the decrypted contents.** -/
theorem crypt_refines (hp : p.Lawful) {es : List (Ev Bytes)} {ws : List (Ev Sector)} {rd : Nat × Nat → Option (Nat × Nat)}
    (h : CryptRun p k es ws rd) {w : Nat → Sector} :
    ∀ {d : Disk Sector}, Disk.Run (Dev.fresh w) ws d → ∃ u, Disk.Run (Dev.fresh fun x => plain hp k x (w x)) es u ∧
      Code (plain hp k) d u ∧ Noted rd d := by
  induction h with
  | nil =>
    intro d hd
    obtain ⟨u, c, g⟩ := code_silent (Code.fresh (f := plain hp k) w) hd
    exact ⟨u, g (.nil _), c, noted_silent (fun o a b => by simp [Dev.fresh]) hd⟩
  | step _ hs ih =>
    intro d hd
    obtain ⟨d1, h1, h2⟩ := hd.split _ _ rfl
    obtain ⟨u, g1, g2, g3⟩ := ih h1
    exact crypt_step hp hs h2 g2 g3 g1

end Verif.Stack
