import Verif.Spec.LiveServe
import Verif.Proof.LiveArchive
import Verif.Proof.Remote

/-! A stripe server beside a running backend: what it answers was there at some moment. -/

set_option maxRecDepth 8000

namespace Verif.LiveServe
open Verif Verif.Metadata Verif.Disk Verif.Lazy Verif.LiveArchive

variable {c : Cfg Bytes} {hdrs : Bytes} {tv : Nat → Bytes} {mv : Nat → Bytes} {b0 : Nat → Nat → Bytes} {s0 s : Sys Bytes}
  {ls0 : List (Lab Bytes)} {log : List SLab} {h : Host}

theorem guest_append (l l' : List SLab) : guest (l ++ l') = guest l ++ guest l' := by
  induction l with
  | nil => rfl
  | cons a l ih => cases a <;> simp [guest, ih]

theorem guest_vol (ls : List (Lab Bytes)) : guest (ls.map .vol) = visible ls := by
  induction ls with
  | nil => rfl
  | cons a l ih =>
    rw [List.map_cons, guest, ih, ← visible_append]; rfl

/-- The backend's part of the run, and the metadata the server has. -/
theorem Serving.beside (hs : Serving c s0 log s h) :
    ∃ ls t m, Beside c s0 ls s t ∧ t.md = some m ∧ h.md = served c.track m ∧ visible ls = guest log := by
  induction hs with
  | ready hB hm => exact ⟨_, _, _, hB, hm, rfl, (guest_vol _).symm⟩
  | volume _ hst ih =>
    obtain ⟨ls, t, m, h1, h2, h3, h4⟩ := ih
    exact ⟨_, t, m, h1.volume hst, h2, h3, by rw [visible_append, guest_append, guest_vol, h4]⟩
  | server _ hst ih =>
    obtain ⟨ls, t, m, h1, h2, h3, h4⟩ := ih
    refine ⟨ls, t, m, h1, h2, ?_, ?_⟩
    · cases hst <;> exact h3
    · rw [guest_append, h4]
      cases hst <;> simp [guest]

/-- The header the server has for stripe `k`, compared with the loaded one. -/
theorem served_header (track : Bool) (m : Meta) (k : Nat) : (served track m).headers[k]? =
    m.headers[k]?.map fun h => if track || Remote.has h HAS_SOURCE then h else h ||| WRITTEN := by
  unfold served
  cases track with
  | true => simp
  | false => simp [Remote.markNoSource]

theorem or_written (h : UInt8) : Remote.has (h ||| WRITTEN) WRITTEN = true ∧ Remote.has (h ||| WRITTEN) HAS_SOURCE = Remote.has h HAS_SOURCE := by
  obtain ⟨b⟩ := h; revert b; decide +kernel

/-- What the way a stripe is read says about the loaded header. -/
theorem way_cases {track : Bool} {m : Meta} {k : Nat} {b : UInt8} (hk : m.headers[k]? = some b) :
    (way (served track m) k = some true → flag b HAS_SOURCE = true ∧ flag b FETCHED = false) ∧
    (way (served track m) k = some false → flag b HAS_SOURCE = false ∨ flag b FETCHED = true) ∧
    (way (served track m) k = none → track = true ∧ flag b WRITTEN = false) := by
  unfold way
  rw [served_header, hk]
  simp only [Option.map_some, Remote.stripeNotFetched, Remote.stripeHasData]
  show (_ → Remote.has b HAS_SOURCE = true ∧ Remote.has b FETCHED = false) ∧ (_ → Remote.has b HAS_SOURCE = false ∨ Remote.has b FETCHED = true) ∧
    (_ → track = true ∧ Remote.has b WRITTEN = false)
  cases track with
  | true =>
    simp only [Bool.true_or, if_true]
    cases Remote.has b HAS_SOURCE <;> cases Remote.has b FETCHED <;> cases Remote.has b WRITTEN <;> simp
  | false =>
    cases hs : Remote.has b HAS_SOURCE with
    | true =>
      simp only [Bool.or_true, if_true, hs]
      cases Remote.has b FETCHED <;> cases Remote.has b WRITTEN <;> simp
    | false =>
      simp only [Bool.or_self, Bool.false_eq_true, if_false, or_written, hs]
      simp

theorem handle_read (h : Host) (f : Nat → Bytes) (k : Nat) : ((h.srv f).handleRead 0 k).1 =
    match way h.md k with
    | some _ => [0] ++ le 8 (Remote.stripeSize h.md) ++ devBytes (stripeSectorCount h.md) fun i => f (k * stripeSectorCount h.md + i)
    | none => if h.md.headers[k]? = none then [1] else [2] := by
  unfold Remote.Srv.handleRead way Host.srv
  simp only
  cases h.md.headers[k]? with
  | none => rfl
  | some b =>
    simp only
    cases Remote.stripeNotFetched b with
    | true => rfl
    | false =>
      cases Remote.stripeHasData b with
      | true => rfl
      | false => rfl

/-- Two ways to write a log with the last request of a session agree. -/
theorem last_ask {q k k' : Nat} {l1 l2 l1' l2' : List SLab} (he : l1 ++ SLab.ask q k :: l2 = l1' ++ SLab.ask q k' :: l2')
    (h : ∀ e ∈ l2, foreign q e) (h' : ∀ e ∈ l2', foreign q e) : l1 = l1' ∧ k = k' ∧ l2 = l2' := by
  rcases List.append_eq_append_iff.mp he with ⟨x, g1, g2⟩ | ⟨x, g1, g2⟩
  · cases x with
    | nil => simp at g1 g2; exact ⟨g1.symm, g2.1, g2.2⟩
    | cons y x =>
      simp only [List.cons_append, List.cons.injEq] at g2
      have := h (.ask q k') (by rw [g2.2]; simp)
      exact absurd rfl this
  · cases x with
    | nil => simp at g1 g2; exact ⟨g1, g2.1.symm, g2.2.symm⟩
    | cons y x =>
      simp only [List.cons_append, List.cons.injEq] at g2
      have := h' (.ask q k) (by rw [g2.2]; simp)
      exact absurd rfl this

/-- What a session may send for stripe `k` that it was asked for after `l1`, with `l2` since. -/
def Fine (c : Cfg Bytes) (hdrs : Bytes) (tv : Nat → Bytes) (es0 : List (Ev Bytes)) (md : Meta) (k : Nat) (l1 l2 : List SLab) (b : Bytes) : Prop :=
  Allowed c.n c.ss c.dom (Held (fun g => preloadWith c g hdrs tv) es0 (guest (l1 ++ l2))) (preload c hdrs tv) k b ∧
  (way md k = some false → Allowed c.n c.ss c.dom (Held (fun g => preloadWith c g hdrs tv) (es0 ++ guest l1) (guest l2)) (preload c hdrs tv) k b) ∧
  (way md k = none → b = [0xff] ∨ b = [1] ∨ b = [2]) ∧ (b = [2] → way md k = none)

structure SInv (c : Cfg Bytes) (hdrs : Bytes) (tv : Nat → Bytes) (es0 : List (Ev Bytes)) (log : List SLab) (h : Host) : Prop where
  cur : ∀ q k buf, h.cur q = some (k, buf) → ∃ l1 l2, log = l1 ++ .ask q k :: l2 ∧ (∀ e ∈ l2, foreign q e) ∧
    ∀ x v, buf x = some v → x / c.ss = k ∧ (c.dom x → Held (fun g => preloadWith c g hdrs tv) es0 (guest (l1 ++ l2)) x v) ∧
      (way h.md k = some false → c.dom x → Held (fun g => preloadWith c g hdrs tv) (es0 ++ guest l1) (guest l2) x v)
  done : ∀ q k l1 l2 b l3, log = l1 ++ .ask q k :: (l2 ++ .answer q b :: l3) → (∀ e ∈ l2, foreign q e) → Fine c hdrs tv es0 h.md k l1 l2 b

/-- What is known of the session `q` that is reading stripe `k`. -/
def Reading (c : Cfg Bytes) (hdrs : Bytes) (tv : Nat → Bytes) (es0 : List (Ev Bytes)) (md : Meta) (log : List SLab) (q k : Nat) (buf : Nat → Option Bytes) : Prop :=
  ∃ l1 l2, log = l1 ++ .ask q k :: l2 ∧ (∀ e ∈ l2, foreign q e) ∧
    ∀ x v, buf x = some v → x / c.ss = k ∧ (c.dom x → Held (fun g => preloadWith c g hdrs tv) es0 (guest (l1 ++ l2)) x v) ∧
      (way md k = some false → c.dom x → Held (fun g => preloadWith c g hdrs tv) (es0 ++ guest l1) (guest l2) x v)

theorem Reading.extend {es0 : List (Ev Bytes)} {md : Meta} {q k : Nat} {buf : Nat → Option Bytes} (hr : Reading c hdrs tv es0 md log q k buf)
    (l : List SLab) (hl : ∀ e ∈ l, foreign q e) : Reading c hdrs tv es0 md (log ++ l) q k buf := by
  obtain ⟨l1, l2, h1, h2, h3⟩ := hr
  refine ⟨l1, l2 ++ l, by rw [h1]; simp, ?_, fun x v hx => ?_⟩
  · intro e he
    rcases List.mem_append.mp he with he | he
    · exact h2 e he
    · exact hl e he
  · obtain ⟨g1, g2, g3⟩ := h3 x v hx
    refine ⟨g1, fun hd => ?_, fun hw hd => ?_⟩
    · rw [← List.append_assoc, guest_append]; exact (g2 hd).mono _
    · rw [guest_append]; exact (g3 hw hd).mono _

/-- An answer in a log that grew by other things was there before. -/
theorem answer_before {l : List SLab} (hl : ∀ q b, SLab.answer q b ∉ l) {q k : Nat} {l1 l2 l3 : List SLab} {b : Bytes}
    (he : log ++ l = l1 ++ .ask q k :: (l2 ++ .answer q b :: l3)) : ∃ l3', log = l1 ++ .ask q k :: (l2 ++ .answer q b :: l3') := by
  have he' : log ++ l = (l1 ++ .ask q k :: l2) ++ .answer q b :: l3 := by rw [he]; simp
  rcases List.append_eq_append_iff.mp he' with ⟨x, g1, g2⟩ | ⟨x, g1, g2⟩
  · exact absurd (by rw [g2]; simp) (hl q b)
  · cases x with
    | nil =>
      simp only [List.nil_append] at g2
      exact absurd (by rw [← g2]; simp) (hl q b)
    | cons y x =>
      simp only [List.cons_append, List.cons.injEq] at g2
      exact ⟨x, by rw [g1, g2.1]; simp⟩

theorem SInv.extend {es0 : List (Ev Bytes)} (hi : SInv c hdrs tv es0 log h) (l : List SLab) (hl : ∀ q, ∀ e ∈ l, foreign q e) :
    SInv c hdrs tv es0 (log ++ l) h := by
  refine ⟨fun q k buf hc => (show Reading c hdrs tv es0 h.md log q k buf from hi.cur q k buf hc).extend l (hl q), fun q k l1 l2 b l3 he hf => ?_⟩
  obtain ⟨l3', he'⟩ := answer_before (fun q b hm => absurd rfl (hl q _ hm)) he
  exact hi.done q k l1 l2 b l3' he' hf

theorem SInv.log_of_answer {q k : Nat} {buf : Nat → Option Bytes} {es0 : List (Ev Bytes)} (hi : SInv c hdrs tv es0 log h) (hc : h.cur q = some (k, buf))
    {b : Bytes} (hok : ∀ l1 l2, log = l1 ++ .ask q k :: l2 → (∀ e ∈ l2, foreign q e) →
      (∀ x v, buf x = some v → x / c.ss = k ∧ (c.dom x → Held (fun g => preloadWith c g hdrs tv) es0 (guest (l1 ++ l2)) x v) ∧
        (way h.md k = some false → c.dom x → Held (fun g => preloadWith c g hdrs tv) (es0 ++ guest l1) (guest l2) x v)) →
      Fine c hdrs tv es0 h.md k l1 l2 b) :
    SInv c hdrs tv es0 (log ++ [.answer q b]) { h with cur := upd h.cur q none } := by
  refine ⟨fun q' k' buf' hc' => ?_, fun q' k' l1 l2 b' l3 he hf => ?_⟩
  · simp only [upd] at hc'
    split at hc'
    · cases hc'
    · rename_i hne
      refine (show Reading c hdrs tv es0 h.md log q' k' buf' from hi.cur q' k' buf' hc').extend _ ?_
      intro e he
      simp only [List.mem_singleton] at he
      subst he
      exact fun h => hne h.symm
  · rcases List.eq_nil_or_concat l3 with rfl | ⟨l3, z, rfl⟩
    · have he' : log ++ [SLab.answer q b] = (l1 ++ .ask q' k' :: l2) ++ [.answer q' b'] := by rw [he]; simp
      obtain ⟨g1, g2⟩ := List.append_inj' he' rfl
      simp only [List.cons.injEq, SLab.answer.injEq, and_true] at g2
      obtain ⟨rfl, rfl⟩ := g2
      obtain ⟨m1, m2, h1, h2, h3⟩ := hi.cur q k buf hc
      obtain ⟨rfl, rfl, rfl⟩ := last_ask (h1.symm.trans g1) h2 hf
      exact hok _ _ h1 h2 h3
    · have he' : log ++ [SLab.answer q b] = (l1 ++ .ask q' k' :: (l2 ++ .answer q' b' :: l3)) ++ [z] := by rw [he]; simp
      obtain ⟨g1, -⟩ := List.append_inj' he' rfl
      exact hi.done q' k' l1 l2 b' l3 g1 hf

/-- A sector arrives. -/
theorem SInv.arrive {q k x : Nat} {buf : Nat → Option Bytes} {v : Bytes} {es0 : List (Ev Bytes)} (hi : SInv c hdrs tv es0 log h) (hc : h.cur q = some (k, buf))
    (hx : x / c.ss = k) (hh : c.dom x → Held (fun g => preloadWith c g hdrs tv) es0 (guest log) x v)
    (ha : way h.md k = some false → c.dom x → AtEnd (fun g => preloadWith c g hdrs tv) (es0 ++ guest log) x v) :
    SInv c hdrs tv es0 (log ++ []) { h with cur := upd h.cur q (some (k, upd buf x (some v))) } := by
  rw [List.append_nil]
  refine ⟨fun q' k' buf' hc' => ?_, hi.done⟩
  simp only [upd] at hc'
  split at hc'
  · rename_i he
    simp only [Option.some.injEq, Prod.mk.injEq] at hc'
    obtain ⟨rfl, rfl⟩ := hc'
    subst he
    obtain ⟨l1, l2, h1, h2, h3⟩ := hi.cur _ _ _ hc
    refine ⟨l1, l2, h1, h2, fun y w hw => ?_⟩
    simp only [upd] at hw
    split at hw
    · rename_i hy
      cases hw
      subst hy
      have hg : guest log = guest (l1 ++ l2) := by rw [h1, guest_append, guest_append]; rfl
      refine ⟨hx, fun hd => by rw [← hg]; exact hh hd, fun hw hd => AtEnd.held ?_⟩
      rw [List.append_assoc, ← guest_append, ← hg]
      exact ha hw hd
    · exact h3 y w hw
  · exact hi.cur q' k' buf' hc'

theorem sinv (hb : Bootable c hdrs mv) (h0 : Run c (Sys.boot c hdrs tv mv b0) ls0 s0) (hss : stripeSectorCount h.md = c.ss) (hs : Serving c s0 log s h) :
    SInv c hdrs tv (visible ls0) log h := by
  induction hs with
  | ready hB hm =>
    refine ⟨fun q k buf hc => (by cases hc), fun q k l1 l2 b l3 he => ?_⟩
    have hm := congrArg (fun l => SLab.ask q k ∈ l) he
    simp at hm
  | volume _ hst ih =>
    refine (ih hss).extend _ fun q e he => ?_
    simp only [List.mem_map] at he
    obtain ⟨l, -, rfl⟩ := he
    trivial
  | @server log l s h h' hS hst ih =>
    have hmd : h'.md = h.md := by cases hst <;> rfl
    have hi := ih (by rw [← hmd]; exact hss)
    rw [hmd] at hss
    obtain ⟨ls, t, m, hB, hm, hsv, hv⟩ := hS.beside
    have hn := now hb h0 hB
    obtain ⟨mv', hI⟩ := inv hb h0 hB
    obtain ⟨hlen, hseen⟩ := hI.md m hm
    rw [hv] at hn hseen
    have hget : ∀ k, k < c.n → m.headers[k]? = some (m.headers.getD k 0) := by
      intro k hk
      rw [List.getD_eq_getElem?_getD, List.getElem?_eq_getElem (by omega)]; rfl
    have hlt : ∀ k b, way h.md k = some b → k < c.n := by
      intro k b hw
      rcases Nat.lt_or_ge k c.n with hk | hk
      · exact hk
      · rw [way, hsv, served_header, List.getElem?_eq_none (by omega)] at hw
        cases hw
    cases hst with
    | ask q k hc =>
      refine ⟨fun q' k' buf' hc' => ?_, fun q' k' l1 l2 b' l3 he hf => ?_⟩
      · simp only [upd] at hc'
        split at hc'
        · rename_i he
          simp only [Option.some.injEq, Prod.mk.injEq] at hc'
          obtain ⟨rfl, rfl⟩ := hc'
          subst he
          exact ⟨log, [], rfl, (by intro e he; cases he), (by intro x v hx; cases hx)⟩
        · rename_i hne
          refine (show Reading c hdrs tv _ h.md log q' k' buf' from hi.cur q' k' buf' hc').extend _ ?_
          intro e he
          simp only [List.mem_singleton] at he
          subst he
          exact fun h => hne h.symm
      · obtain ⟨l3', he'⟩ := answer_before (by intro q b hm; simp at hm) he
        exact hi.done q' k' l1 l2 b' l3' he' hf
    | disk q k buf x hc hw hx ht =>
      have hk := hlt k _ hw
      have hset : settled s (x / c.ss) := by
        rw [hx]
        rw [hsv] at hw
        rcases (way_cases (hget k hk)).2.1 hw with h1 | h1
        · rw [(hseen k hk).src] at h1
          exact .inl ((hn.nosrc k).2 h1)
        · exact (hseen k hk).settled h1
      exact hi.arrive hc hx (fun hd => (hn.disk x hd hset).held) fun _ hd => hn.disk x hd hset
    | source q k buf x v hc hw hx hv' =>
      have hk := hlt k _ hw
      refine hi.arrive hc hx (fun hd => ?_) fun h1 => (by rw [hw] at h1; cases h1)
      rw [hsv] at hw
      obtain ⟨h1, h2⟩ := (way_cases (hget k hk)).1 hw
      exact (hseen k hk).image h1 h2 x v hx hd.2 hv'
    | fail q k buf hc => exact hi.log_of_answer hc fun l1 l2 _ _ _ => ⟨.error, fun _ => .error, fun _ => .inl rfl, fun h => by cases h⟩
    | answer q k buf f hc hl hf =>
      refine hi.log_of_answer hc fun l1 l2 hlog hfor hbuf => ?_
      have hg : guest log = guest (l1 ++ l2) := by rw [hlog, guest_append, guest_append]; rfl
      have hdl : (devBytes c.ss fun i => f (k * c.ss + i)).length = c.ss * 512 := devBytes_length _ _ fun i => hl _
      have hds : ∀ i, i < c.ss → slice (devBytes c.ss fun i => f (k * c.ss + i)) (i * 512) 512 = f (k * c.ss + i) := fun i hi' =>
        devBytes_slice c.ss (fun i => f (k * c.ss + i)) (fun i => hl _) i hi'
      have hdiv : ∀ i, i < c.ss → (k * c.ss + i) / c.ss = k := by
        intro i hi'
        rw [Nat.mul_comm, Nat.mul_add_div (by omega), Nat.div_eq_of_lt hi', Nat.add_zero]
      rw [handle_read]
      cases hw : way h.md k with
      | none =>
        refine ⟨?_, (fun h' => by cases hw.symm.trans h'), (fun _ => .inr (by simp only; split <;> simp)), fun _ => hw⟩
        simp only
        rcases Nat.lt_or_ge k c.n with hk | hk
        · have hne : ¬ h.md.headers[k]? = none := by rw [hsv, served_header, hget k hk]; simp
          rw [if_neg hne]
          rw [hsv] at hw
          obtain ⟨h1, h2⟩ := (way_cases (hget k hk)).2.2 hw
          refine .noData hk fun x hx hd => ?_
          rw [← hg]
          exact (hseen k hk).fresh h1 h2 x hx hd
        · rw [if_pos (by rw [hsv, served_header, List.getElem?_eq_none (by omega)]; rfl)]
          exact .invalid hk
      | some b =>
        have hk := hlt k _ hw
        simp only [Remote.stripeSize, hss]
        have hbf : ∀ i, i < c.ss → c.dom (k * c.ss + i) → buf (k * c.ss + i) = some (f (k * c.ss + i)) := by
          intro i hi' hd
          refine hf _ (hdiv i hi') ?_
          cases b with
          | false => exact .inl ⟨hw, hd.2⟩
          | true =>
            refine .inr ⟨hw, ?_⟩
            rw [hsv] at hw
            obtain ⟨h1, h2⟩ := (way_cases (hget k hk)).1 hw
            rw [(hseen k hk).src] at h1
            have := hd.1
            unfold Cfg.good at this
            rw [hdiv i hi', h1] at this
            simpa using this
        refine ⟨.data hk _ hdl fun i hi' hd => ?_, fun h' => .data hk _ hdl fun i hi' hd => ?_, (fun h' => by cases hw.symm.trans h'), fun h' => by simp at h'⟩
        · rw [hds i hi']
          exact (hbuf _ _ (hbf i hi' hd)).2.1 hd
        · rw [hds i hi']
          rw [hw] at h'
          exact (hbuf _ _ (hbf i hi' hd)).2.2 (by rw [hw]; exact h') hd

/-! ### The stripe size the server works with is the volume's -/

theorem devBytes_byte {n i : Nat} {v : Nat → Bytes} (h0 : (v 0).length = 512) (hn : 0 < n) (hi : i < 512) : (devBytes n v).getD i 0 = (v 0).getD i 0 := by
  obtain ⟨m, rfl⟩ : ∃ m, n = m + 1 := ⟨n - 1, by omega⟩
  unfold devBytes
  rw [List.range_succ_eq_map, List.flatMap_cons, List.getD_eq_getElem?_getD, List.getElem?_append_left (by omega), List.getD_eq_getElem?_getD]

/-- Nothing ever writes the first sector of the metadata. -/
theorem first_sector (hb : Bootable c hdrs mv) (h0 : Run c (Sys.boot c hdrs tv mv b0) ls0 s0) :
    ∃ h' mv', Bootable c h' mv' ∧ MetaInv c mv' s0 ∧ mv' 0 = mv 0 := by
  generalize hi : Sys.boot c hdrs tv mv b0 = i at h0
  induction h0 with
  | nil => subst hi; exact ⟨hdrs, mv, hb, boot_meta hb, rfl⟩
  | step hr hs ih =>
    obtain ⟨h', mv', h1, h2, h3⟩ := ih
    obtain ⟨⟨-, hf⟩, -⟩ := run_sim hb hi.symm hr
    exact ⟨h', mv', h1, step_meta hf h2 hs, h3⟩
  | @crash s' _ _ mw m' _ hr _ hsv hl ih =>
    obtain ⟨h', mv', h1, h2, h3⟩ := ih
    obtain ⟨md, g1, g2, -⟩ := reload h1 h2 hsv
    rw [hl, Except.ok.injEq] at g1
    subst g1
    refine ⟨_, mw, g2, boot_meta g2, ?_⟩
    rw [← h3]
    exact (h2.pers 0 _ (hsv 0)).other (by intro k _; unfold stripeIdToSector; omega)

theorem loaded_shift {m0 m : Meta} {ls : List (Lab Bytes)} {t : Tool Bytes} (hb : Bootable c hdrs mv) (h0 : Run c (Sys.boot c hdrs tv mv b0) ls0 s0)
    (hB : Beside c s0 ls s t) (hl0 : fromBytes (devBytes c.msec mv) = .ok m0) (hm : t.md = some m) : m.shift = m0.shift := by
  obtain ⟨h', mv', h1, h2, h3⟩ := first_sector hb h0
  have hpos : 0 < c.msec := by
    have := (fromBytes_ok hl0).1
    rw [devBytes_length _ _ hb.sectors] at this
    omega
  suffices h : MetaInv c mv' s ∧ (∀ v, t.sectors 0 = some v → v = mv 0) ∧ ∀ m, t.md = some m → m.shift = m0.shift from h.2.2 m hm
  clear hm
  induction hB with
  | start => exact ⟨h2, (by intro v hv; cases hv), by intro m hm; cases hm⟩
  | volume hB hs ih => exact ⟨step_meta (now hb h0 hB).sound.1.fetch ih.1 hs, ih.2⟩
  | tool hB hs ih =>
    obtain ⟨i1, i2, i3⟩ := ih
    cases hs with
    | sector x hx hm =>
      refine ⟨i1, fun v hv => ?_, i3⟩
      simp only [upd] at hv
      split at hv
      · rename_i he
        subst he
        cases hv
        rw [← h3]
        exact (i1.pers 0 _ (i1.dev.vol_pers 0)).other (by intro k _; unfold stripeIdToSector; omega)
      · exact i2 v hv
    | load v md hm hv hl =>
      refine ⟨i1, i2, fun m hm' => ?_⟩
      cases hm'
      have hv0 := i2 _ (hv 0 hpos)
      rw [(fromBytes_ok hl).2.2.2.2.2.2.2.1, (fromBytes_ok hl0).2.2.2.2.2.2.2.1, devBytes_byte (by rw [hv0]; exact hb.sectors 0) hpos (by decide),
        devBytes_byte (hb.sectors 0) hpos (by decide), hv0]
    | disk => exact ⟨i1, i2, i3⟩
    | source => exact ⟨i1, i2, i3⟩

theorem served_shift (track : Bool) (m : Meta) : stripeSectorCount (served track m) = stripeSectorCount m := by
  unfold served; split <;> rfl

theorem serving_size {m0 : Meta} (hb : Bootable c hdrs mv) (h0 : Run c (Sys.boot c hdrs tv mv b0) ls0 s0) (hs : Serving c s0 log s h)
    (hl0 : fromBytes (devBytes c.msec mv) = .ok m0) (hss : stripeSectorCount m0 = c.ss) : stripeSectorCount h.md = c.ss := by
  obtain ⟨ls, t, m, hB, hm, hsv, -⟩ := hs.beside
  have := loaded_shift hb h0 hB hl0 hm
  rw [hsv, served_shift, ← hss, stripeSectorCount, this]
  rfl

end Verif.LiveServe
