import Verif.Proof.Recode
import Verif.Proof.WriteThroughTrace

/-! # A disk that writes through, seen through a recoding of its sectors

As `Proof/Recode`, for the disks of Spec/WriteThrough. -/

set_option maxRecDepth 8000

namespace Verif.Disk

variable {A B : Type} {f : Nat → A → B} {d : Disk A} {u : Disk B}

theorem Code.settle (h : Code f d u) (off cnt : Nat) : Code f (Dev.settle d off cnt) (Dev.settle u off cnt) :=
  ⟨h.vol, fun x w hw => ⟨h.pers x w hw.1, fun hx => (hw.2 hx).imp (fun e => by rw [e, h.vol]) h.inflight⟩, h.ops⟩

theorem Code.leave (h : Code f d u) (o : Nat × Nat) : Code f (Dev.leave d o) (Dev.leave u o) :=
  ⟨h.vol, h.pers, CodeOp.upd h.ops o .none⟩

structure WCode (f : Nat → A → B) (d : WDisk A) (u : WDisk B) : Prop where
  dev : Code f d.dev u.dev
  sure : u.sure = d.sure

theorem WCode.fresh (v : Nat → A) : WCode f (WDisk.fresh v) (WDisk.fresh fun x => f x (v x)) := ⟨Code.fresh v, rfl⟩

theorem WCode.leave {d : WDisk A} {u : WDisk B} (h : WCode f d u) (o : Nat × Nat) :
    WCode f { d with dev := Dev.leave d.dev o } { u with dev := Dev.leave u.dev o } := ⟨h.dev.leave o, h.sure⟩

theorem wrun_nil_ind {d d' : WDisk A} {es : List (Ev A)} (h : WDisk.Run d es d') (he : es = []) (P : WDisk A → Prop) (h0 : P d)
    (hs : ∀ d d', P d → WDisk.Step d [] d' → P d') : P d' := by
  induction h with
  | nil => exact h0
  | snoc hr hst ih =>
    obtain ⟨e1, e2⟩ := List.append_eq_nil_iff.1 he
    subst e2
    exact hs _ _ (ih e1) hst

theorem wcode_silent {d d' : WDisk A} {u : WDisk B} (h : WCode f d u) (hr : WDisk.Run d [] d') :
    ∃ u', WCode f d' u' ∧ ∀ {u0 es}, WDisk.Run u0 es u → WDisk.Run u0 es u' := by
  refine wrun_nil_ind hr rfl (fun d' => ∃ u', WCode f d' u' ∧ ∀ {u0 es}, WDisk.Run u0 es u → WDisk.Run u0 es u') ⟨u, h, fun h => h⟩ ?_
  rintro d d' ⟨u', h1, h2⟩ hst
  generalize he : ([] : List (Ev A)) = es at hst
  cases hst with
  | issue => cases he
  | respond => cases he
  | crash => cases he
  | exec o x =>
    refine ⟨{ u' with dev := u'.dev.exec o x }, ⟨h1.dev.exec o x, h1.sure⟩, fun h => ?_⟩
    have := (h2 h).snoc (.exec u' o x)
    rw [List.append_nil] at this
    exact this
  | settle o off cnt data done ho hf =>
    have hc := h1.dev.ops o
    rw [ho] at hc
    generalize hu : u'.dev.ops o = y at hc
    cases hc with
    | write _ _ _ data' _ hd =>
      refine ⟨{ dev := Dev.settle u'.dev off cnt, sure := upd u'.sure o true }, ⟨h1.dev.settle off cnt, by rw [h1.sure]⟩, fun h => ?_⟩
      have := (h2 h).snoc (.settle u' o off cnt data' done hu hf)
      rw [List.append_nil] at this
      exact this

theorem wissue_run {d d' : WDisk A} {q id : Nat} {r : Req A} (h : WDisk.Run d [.issue q id r] d') :
    ∃ d1, WDisk.Run d [] d1 ∧ d1.dev.ops (q, id) = none ∧
      WDisk.Run { dev := d1.dev.issue (q, id) r, sure := upd d1.sure (q, id) false } [] d' := by
  obtain ⟨d1, d2, h1, h2, h3⟩ := h.event
  generalize he : [Ev.issue q id r] = es at h2
  cases h2 with
  | respond => cases he
  | exec => cases he
  | settle => cases he
  | crash => cases he
  | issue q' id' r' hm => cases he; exact ⟨d1, h1, hm, h3⟩

theorem wresp_run {d d' : WDisk A} {q id : Nat} {ok : Bool} {data : List (Option A)} (h : WDisk.Run d [.resp q id ok data] d') :
    ∃ d1, WDisk.Run d [] d1 ∧ Dev.mayComplete d1.dev (q, id) ok ∧
      (∀ off cnt data done, d1.dev.ops (q, id) = some (.write off cnt data done) → ok = true → d1.sure (q, id) = true) ∧
      data = Dev.result d1.dev (q, id) ok ∧ WDisk.Run { d1 with dev := Dev.leave d1.dev (q, id) } [] d' := by
  obtain ⟨d1, d2, h1, h2, h3⟩ := h.event
  generalize he : [Ev.resp q id ok data] = es at h2
  cases h2 with
  | issue => cases he
  | exec => cases he
  | settle => cases he
  | crash => cases he
  | respond q' id' ok' hm hs => cases he; exact ⟨d1, h1, hm, hs, rfl, h3⟩

theorem WCode.sureOk {d : WDisk A} {u : WDisk B} (h : WCode f d u) {o : Nat × Nat} {ok : Bool}
    (hs : ∀ off cnt data done, d.dev.ops o = some (.write off cnt data done) → ok = true → d.sure o = true) :
    ∀ off cnt data done, u.dev.ops o = some (.write off cnt data done) → ok = true → u.sure o = true := by
  intro off cnt data done hu hk
  have hc := h.dev.ops o
  rw [hu] at hc
  generalize hd : d.dev.ops o = y at hc
  cases hc with
  | write _ _ data' _ _ _ => rw [h.sure]; exact hs _ _ _ _ hd hk

end Verif.Disk

namespace Verif.Stack
open Verif Verif.Disk Verif.Crypt

variable {p : Xts} {k : Keys}

theorem wnoted_silent {rd : Nat × Nat → Option (Nat × Nat)} {d d' : WDisk Sector} (h : Noted rd d.dev) (hr : WDisk.Run d [] d') :
    Noted rd d'.dev := by
  refine wrun_nil_ind hr rfl (fun d => Noted rd d.dev) h ?_
  intro d d' h hst
  generalize he : ([] : List (Ev Sector)) = es at hst
  cases hst with
  | issue => cases he
  | respond => cases he
  | crash => cases he
  | exec o x => exact noted_exec h o x
  | settle => exact h

theorem noted_none {rd : Nat × Nat → Option (Nat × Nat)} {d : Disk Sector} (h : Noted rd d) {o : Nat × Nat} (ho : d.ops o = none) : rd o = none := by
  rcases e : rd o with _ | ⟨a, b⟩
  · rfl
  · obtain ⟨g, hg⟩ := (h _ a b).1 e
    rw [ho] at hg; cases hg

theorem noted_leave {rd : Nat × Nat → Option (Nat × Nat)} {d : Disk Sector} (h : Noted rd d) (o : Nat × Nat) :
    Noted (upd rd o none) (Dev.leave d o) := by
  refine h.upd o (fun o' hne a b => ?_) fun a b => ?_
  · simp only [Dev.leave, upd_ne _ _ hne]
  · simp [Dev.leave, upd_same]

theorem wcrypt_step (hp : p.Lawful) {rd rd' : Nat × Nat → Option (Nat × Nat)} {es' : List (Ev Bytes)} {ws' : List (Ev Sector)}
    (h : CryptStep p k rd es' ws' rd') {d d' : WDisk Sector} (hr : WDisk.Run d ws' d') {u0 u : WDisk Bytes} {es : List (Ev Bytes)}
    (hc : WCode (plain hp k) d u) (hn : Noted rd d.dev) (hu : WDisk.Run u0 es u) :
    ∃ u', WDisk.Run u0 (es ++ es') u' ∧ WCode (plain hp k) d' u' ∧ Noted rd' d'.dev := by
  cases h with
  | read q id off cnt =>
    obtain ⟨d1, h1, h2, h3⟩ := wissue_run hr
    obtain ⟨u1, c1, g1⟩ := wcode_silent hc h1
    have n1 := wnoted_silent hn h1
    have s1 := (g1 hu).snoc (.issue u1 q id (.read off cnt) ((c1.dev.ops _).none_iff.1 h2))
    obtain ⟨u2, c2, g2⟩ := wcode_silent (u := { dev := u1.dev.issue (q, id) (.read off cnt), sure := upd u1.sure (q, id) false })
      ⟨c1.dev.issueRead (q, id) off cnt, by rw [c1.sure]⟩ h3
    refine ⟨u2, g2 s1, c2, wnoted_silent (n1.upd (q, id) (fun o' hne a b => ?_) fun a b => ?_) h3⟩
    · simp only [Disk.issue, Dev.issueRead, upd_ne _ _ hne]
    · simp only [Disk.issue, Dev.issueRead, upd_same, Option.some.injEq, Prod.mk.injEq, Op.read.injEq]
      exact ⟨fun ⟨h1, h2⟩ => ⟨_, h1, h2, rfl⟩, fun ⟨_, h1, h2, _⟩ => ⟨h1, h2⟩⟩
  | write q id off cnt data buf buf' hb he =>
    obtain ⟨d1, h1, h2, h3⟩ := wissue_run hr
    obtain ⟨u1, c1, g1⟩ := wcode_silent hc h1
    have n1 := wnoted_silent hn h1
    have s1 := (g1 hu).snoc (.issue u1 q id (.write off cnt data) ((c1.dev.ops _).none_iff.1 h2))
    have hdata : ∀ x, covers off cnt x → data x = plain hp k x (bufData buf' off cnt x) := fun x hx => by
      rw [encrypt_slices hp he hx]
      have := hb (x - off) (by obtain ⟨h1, h2⟩ := hx; omega)
      rwa [show off + (x - off) = x by obtain ⟨h1, h2⟩ := hx; omega] at this
    obtain ⟨u2, c2, g2⟩ := wcode_silent (u := { dev := u1.dev.issue (q, id) (.write off cnt data), sure := upd u1.sure (q, id) false })
      ⟨c1.dev.issueWrite (q, id) off cnt hdata, by rw [c1.sure]⟩ h3
    refine ⟨u2, g2 s1, c2, wnoted_silent ?_ h3⟩
    rw [← upd_self rd (q, id) (noted_none n1 h2)]
    refine n1.upd (q, id) (fun o' hne a b => ?_) fun a b => ?_
    · simp only [Disk.issue]
      rw [ops_issueWrite_ne _ _ _ _ hne]
      simp only [Option.map_eq_some_iff, addSnap_read]
      exact ⟨fun ⟨g, _, hg, e⟩ => ⟨g, by rw [hg, e]⟩, fun ⟨g, hg⟩ => ⟨g, _, hg, rfl⟩⟩
    · simp [Disk.issue, Dev.issueWrite, upd_same]
  | flush q id =>
    obtain ⟨d1, h1, h2, h3⟩ := wissue_run hr
    obtain ⟨u1, c1, g1⟩ := wcode_silent hc h1
    have n1 := wnoted_silent hn h1
    have s1 := (g1 hu).snoc (.issue u1 q id .flush ((c1.dev.ops _).none_iff.1 h2))
    obtain ⟨u2, c2, g2⟩ := wcode_silent (u := { dev := u1.dev.issue (q, id) .flush, sure := upd u1.sure (q, id) false })
      ⟨c1.dev.issueFlush (q, id), by rw [c1.sure]⟩ h3
    refine ⟨u2, g2 s1, c2, wnoted_silent ?_ h3⟩
    rw [← upd_self rd (q, id) (noted_none n1 h2)]
    refine n1.upd (q, id) (fun o' hne a b => ?_) fun a b => ?_
    · simp only [Disk.issue, Dev.issueFlush, upd_ne _ _ hne]
    · simp [Disk.issue, Dev.issueFlush, upd_same]
  | readDone q id off cnt data out hrd hdec =>
    obtain ⟨d1, h1, h2, hsu, h3, h4⟩ := wresp_run hr
    obtain ⟨u1, c1, g1⟩ := wcode_silent hc h1
    have n1 := wnoted_silent hn h1
    obtain ⟨got, hg⟩ := (n1 _ _ _).1 hrd
    have s1 := (g1 hu).snoc (.respond u1 q id true (c1.dev.mayComplete h2) (c1.sureOk hsu))
    obtain ⟨u2, c2, g2⟩ := wcode_silent (c1.leave (q, id)) h4
    have hres : data = (List.range cnt).map fun i => got (off + i) := by rw [h3]; simp [Dev.result, hg]
    have hur : Dev.result u1.dev (q, id) true = (List.range cnt).map fun j => some (slice out (j * 512) 512) := by
      have ho := c1.dev.ops (q, id)
      rw [hg] at ho
      generalize hu1 : u1.dev.ops (q, id) = y at ho
      cases ho with
      | read _ _ _ got' hgg =>
        simp only [Dev.result, hu1, if_true]
        apply List.map_congr_left
        intro j hj
        have hj := List.mem_range.1 hj
        obtain ⟨op, o1, o2⟩ := h2
        rw [hg, Option.some.injEq] at o1
        subst o1
        obtain ⟨s, hs⟩ := Option.ne_none_iff_exists'.1 (o2 rfl (off + j) ⟨by omega, by omega⟩)
        rw [hgg, hs, decrypt_slices hp (by rw [hres]; simp) hdec hj (s := s) (by rw [hres]; simp [hj, hs])]
        rfl
    rw [hur] at s1
    exact ⟨u2, g2 s1, c2, wnoted_silent (noted_leave n1 (q, id)) h4⟩
  | done q id ok data hrd =>
    obtain ⟨d1, h1, h2, hsu, h3, h4⟩ := wresp_run hr
    obtain ⟨u1, c1, g1⟩ := wcode_silent hc h1
    have n1 := wnoted_silent hn h1
    have s1 := (g1 hu).snoc (.respond u1 q id ok (c1.dev.mayComplete h2) (c1.sureOk hsu))
    obtain ⟨u2, c2, g2⟩ := wcode_silent (c1.leave (q, id)) h4
    have hur : Dev.result u1.dev (q, id) ok = [] := by
      have ho := c1.dev.ops (q, id)
      generalize hd1 : d1.dev.ops (q, id) = x at ho
      generalize hu1 : u1.dev.ops (q, id) = y at ho
      cases ho with
      | read off cnt got got' hgg =>
        cases ok with
        | false => simp [Dev.result, hu1]
        | true =>
          have := (n1 (q, id) off cnt).2 ⟨got, hd1⟩
          rw [hrd rfl] at this; cases this
      | none => simp [Dev.result, hu1]
      | write => simp [Dev.result, hu1]
      | flush => simp [Dev.result, hu1]
    rw [hur] at s1
    exact ⟨u2, g2 s1, c2, wnoted_silent (noted_leave n1 (q, id)) h4⟩
  | crash =>
    obtain ⟨d1, d2, h1, h2, h3⟩ := hr.event
    obtain ⟨u1, c1, g1⟩ := wcode_silent hc h1
    generalize he : [Ev.crash] = ws at h2
    cases h2 with
    | issue => cases he
    | exec => cases he
    | settle => cases he
    | respond => cases he
    | crash v hv =>
      have s1 := (g1 hu).snoc (.crash u1 _ (c1.dev.survives hv))
      obtain ⟨u2, c2, g2⟩ := wcode_silent (WCode.fresh (f := plain hp k) v) h3
      exact ⟨u2, g2 s1, c2, wnoted_silent (fun o a b => by simp [WDisk.fresh, Dev.fresh]) h3⟩

/-- **The encrypting channel over a disk that writes through is a disk that writes through with the decrypted contents.** -/
theorem wcrypt_refines (hp : p.Lawful) {es : List (Ev Bytes)} {ws : List (Ev Sector)} {rd : Nat × Nat → Option (Nat × Nat)}
    (h : CryptRun p k es ws rd) {w : Nat → Sector} :
    ∀ {d : WDisk Sector}, WDisk.Run (WDisk.fresh w) ws d → ∃ u, WDisk.Run (WDisk.fresh fun x => plain hp k x (w x)) es u ∧
      WCode (plain hp k) d u ∧ Noted rd d.dev := by
  induction h with
  | nil =>
    intro d hd
    obtain ⟨u, c, g⟩ := wcode_silent (WCode.fresh (f := plain hp k) w) hd
    exact ⟨u, g (.nil _), c, wnoted_silent (fun o a b => by simp [WDisk.fresh, Dev.fresh]) hd⟩
  | step _ hs ih =>
    intro d hd
    obtain ⟨d1, h1, h2⟩ := hd.split _ _ rfl
    obtain ⟨u, g1, g2, g3⟩ := ih h1
    exact wcrypt_step hp hs h2 g2 g3 g1

end Verif.Stack
