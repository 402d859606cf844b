import Verif.Model.Remote
import Verif.Spec.Remote
import Verif.Props.Metadata

/-! # Lemmas about the stripe server and its client -/

set_option maxRecDepth 8000

namespace Verif.Remote
open Verif Verif.Metadata Verif.Disk

/-! ## Streams -/

theorem readExact_eq (cs : List Bytes) : ∀ n,
    (cs.flatten.length < n → readExact n cs = none) ∧
    (n ≤ cs.flatten.length → ∃ cs', readExact n cs = some (cs.flatten.take n, cs') ∧ cs'.flatten = cs.flatten.drop n) := by
  induction cs with
  | nil =>
    intro n
    cases n with
    | zero => exact ⟨by simp, fun _ => ⟨[], by simp [readExact]⟩⟩
    | succ n => exact ⟨fun _ => by simp [readExact], by simp⟩
  | cons c cs ih =>
    intro n
    cases n with
    | zero => exact ⟨by simp, fun _ => ⟨c :: cs, by simp [readExact]⟩⟩
    | succ n =>
      rw [readExact]
      by_cases hc : n + 1 < c.length
      · rw [if_pos hc]
        refine ⟨fun h => by simp at h; omega, fun _ => ⟨c.drop (n + 1) :: cs, ?_, ?_⟩⟩
        · rw [List.flatten_cons, List.take_append_of_le_length (Nat.le_of_lt hc)]
        · rw [List.flatten_cons, List.flatten_cons, List.drop_append_of_le_length (Nat.le_of_lt hc)]
      · rw [if_neg hc]
        have hl : (c :: cs).flatten.length = c.length + cs.flatten.length := by simp
        obtain ⟨h1, h2⟩ := ih (n + 1 - c.length)
        constructor
        · intro h
          rw [h1 (by omega)]
        · intro h
          obtain ⟨cs', e1, e2⟩ := h2 (by omega)
          refine ⟨cs', ?_, ?_⟩
          · rw [e1]
            simp only [List.flatten_cons, Option.some.injEq, Prod.mk.injEq, and_true]
            rw [List.take_append, List.take_of_length_le (by omega : c.length ≤ n + 1)]
          · rw [e2, List.flatten_cons, List.drop_append, List.drop_of_length_le (by omega : c.length ≤ n + 1)]
            simp

/-- `read_exact` on a stream that still holds `a ++ r`. -/
theorem readExact_append {cs : List Bytes} {a r : Bytes} (h : cs.flatten = a ++ r) :
    ∃ cs', readExact a.length cs = some (a, cs') ∧ cs'.flatten = r := by
  obtain ⟨cs', h1, h2⟩ := (readExact_eq cs a.length).2 (by rw [h]; simp)
  refine ⟨cs', ?_, ?_⟩
  · rw [h1, h]; simp
  · rw [h2, h]; simp

theorem readExact_append' {cs : List Bytes} {a r : Bytes} {n : Nat} (hn : a.length = n) (h : cs.flatten = a ++ r) :
    ∃ cs', readExact n cs = some (a, cs') ∧ cs'.flatten = r := hn ▸ readExact_append h

theorem recv_append {α} {cs : List Bytes} {a r : Bytes} {n : Nat} (f : Bytes → List Bytes → Call α) (hn : a.length = n)
    (h : cs.flatten = a ++ r) : ∃ cs', recv n cs f = f a cs' ∧ cs'.flatten = r := by
  obtain ⟨cs', h1, h2⟩ := readExact_append' hn h
  exact ⟨cs', by simp only [recv, h1], h2⟩

/-! ## Flags -/

theorem has_fetched (h : UInt8) : has h FETCHED = (flagsOf h).fetched := by
  obtain ⟨b⟩ := h; revert b; decide +kernel
theorem has_written (h : UInt8) : has h WRITTEN = (flagsOf h).written := by
  obtain ⟨b⟩ := h; revert b; decide +kernel
theorem has_source (h : UInt8) : has h HAS_SOURCE = (flagsOf h).hasSource := by
  obtain ⟨b⟩ := h; revert b; decide +kernel
theorem has_either (h : UInt8) : has h (WRITTEN ||| HAS_SOURCE) = ((flagsOf h).written || (flagsOf h).hasSource) := by
  obtain ⟨b⟩ := h; revert b; decide +kernel
theorem flags_mark (h : UInt8) : flagsOf (h ||| WRITTEN) = { flagsOf h with written := true } := by
  have a : (flagsOf (h ||| WRITTEN)).fetched = (flagsOf h).fetched := by obtain ⟨b⟩ := h; revert b; decide +kernel
  have b : (flagsOf (h ||| WRITTEN)).written = true := by clear a; obtain ⟨b⟩ := h; revert b; decide +kernel
  have c : (flagsOf (h ||| WRITTEN)).hasSource = (flagsOf h).hasSource := by
    clear a b; obtain ⟨b⟩ := h; revert b; decide +kernel
  show Flags.mk (flagsOf (h ||| WRITTEN)).fetched (flagsOf (h ||| WRITTEN)).written (flagsOf (h ||| WRITTEN)).hasSource = _
  rw [a, b, c]

/-! ## The server -/

/-- The volume a session serves. -/
def Srv.volume (s : Srv) : Volume :=
  { ss := stripeSectorCount s.md, flags := s.md.headers.map flagsOf, disk := s.dev, image := s.src }

theorem ssc_pos (m : Meta) : 0 < stripeSectorCount m := Nat.pow_pos (by decide)

theorem sectors_length {d : Nat → Bytes} (hd : ∀ x, (d x).length = 512) (off n : Nat) : (sectors d off n).length = n * 512 := by
  induction n with
  | zero => simp [sectors]
  | succ n ih =>
    simp only [sectors, List.range_succ, List.flatMap_append, List.length_append] at ih ⊢
    rw [ih]; simp [hd]; omega

theorem flatMap_congr {α β} {l : List α} {f g : α → List β} (h : ∀ a ∈ l, f a = g a) : l.flatMap f = l.flatMap g := by
  induction l with
  | nil => rfl
  | cons a l ih =>
    rw [List.flatMap_cons, List.flatMap_cons, h a List.mem_cons_self, ih fun b hb => h b (List.mem_cons_of_mem _ hb)]

theorem div_of_stripe {k ss i : Nat} (h : i < ss) : (k * ss + i) / ss = k := by
  rw [Nat.mul_comm, Nat.mul_add_div (by omega), Nat.div_eq_of_lt h]; rfl

/-- The stripe is read from the source exactly if its data are there only. -/
theorem stripe_local {v : Volume} {k : Nat} {f : Flags} (hf : v.flags[k]? = some f) (hr : f.remote = false) :
    v.stripe k = sectors v.disk (k * v.ss) v.ss := by
  refine flatMap_congr fun i hi => ?_
  rw [Volume.sector, div_of_stripe (List.mem_range.1 hi), hf]
  cases v.image <;> simp [hr]

theorem stripe_remote {v : Volume} {k : Nat} {f : Flags} {im : Nat → Bytes} (hf : v.flags[k]? = some f) (hr : f.remote = true)
    (hi : v.image = some im) : v.stripe k = sectors im (k * v.ss) v.ss := by
  refine flatMap_congr fun i hi' => ?_
  rw [Volume.sector, div_of_stripe (List.mem_range.1 hi'), hf, hi]
  simp [hr]

/-- All sectors have 512 bytes. -/
def Srv.Sized (s : Srv) : Prop := (∀ x, (s.dev x).length = 512) ∧ ∀ f, s.src = some f → ∀ x, (f x).length = 512

theorem stripe_length {s : Srv} (hs : s.Sized) (k : Nat) : (s.volume.stripe k).length = stripeSize s.md := by
  have : s.volume.stripe k = sectors s.volume.sector (k * s.volume.ss) s.volume.ss := rfl
  rw [this, sectors_length]
  · rfl
  · intro x
    unfold Volume.sector
    split
    · rename_i f im hf him
      split
      · exact hs.2 im him x
      · exact hs.1 x
    · exact hs.1 x

theorem not_fetched_iff (h : UInt8) : stripeNotFetched h = (flagsOf h).remote := by
  rw [stripeNotFetched, has_source, has_fetched]; rfl

theorem has_data_of {h : UInt8} (hr : (flagsOf h).remote = false) :
    stripeHasData h = ((flagsOf h).written || (flagsOf h).hasSource) := by
  rw [stripeHasData, has_source, has_fetched, has_written]
  revert hr
  simp only [Flags.remote]
  cases (flagsOf h).fetched <;> cases (flagsOf h).written <;> cases (flagsOf h).hasSource <;> decide

theorem sendStripe_some {s : Srv} {d : Bytes} (h : d.length = stripeSize s.md) :
    Wire (.data d) (s.sendStripe (some d)).1 ∧ (s.sendStripe (some d)).2 = true := by
  refine ⟨?_, rfl⟩
  simp only [Srv.sendStripe, Wire, h, STATUS_OK]
  rfl

/-- The reply to a read: the answer the volume calls for, or an error and the end of the session when the read it
needs fails. -/
theorem handleRead_ok {s : Srv} (hs : s.Sized) (i k : Nat) :
    (Wire (s.volume.answer k) (s.handleRead i k).1 ∧ (s.handleRead i k).2 = true) ∨
    (Wire .serverError (s.handleRead i k).1 ∧ (s.handleRead i k).2 = false ∧ (s.devOk i = false ∨ s.srcOk i = false) ∧
      ∃ d, s.volume.answer k = .data d) := by
  unfold Srv.handleRead Volume.answer
  have hfl : s.volume.flags[k]? = (s.md.headers[k]?).map flagsOf := by simp [Srv.volume]
  rw [hfl]
  cases hh : s.md.headers[k]? with
  | none => left; simp [Wire, STATUS_INVALID_STRIPE]
  | some h =>
    rw [hh] at hfl
    simp only [Option.map_some] at hfl ⊢
    rw [not_fetched_iff]
    cases hr : (flagsOf h).remote with
    | true =>
      have hsrc : ((flagsOf h).written || (flagsOf h).hasSource) = true := by
        simp only [Flags.remote, Bool.and_eq_true] at hr
        simp [hr.1]
      cases him : s.src with
      | none =>
        left
        simp [Srv.volume, him, Wire, STATUS_NOT_FETCHED]
      | some im =>
        have himv : s.volume.image = some im := him
        simp only [if_true, himv, Option.isNone_some, Bool.and_false, hsrc, Bool.false_eq_true, if_false]
        have hst := stripe_remote hfl hr himv
        by_cases hok : s.srcOk i = true
        · left
          have : s.readFromSource im i k = some (s.volume.stripe k) := by
            rw [Srv.readFromSource, if_pos hok, hst]; rfl
          rw [this]
          exact sendStripe_some (stripe_length hs k)
        · right
          have : s.readFromSource im i k = none := by rw [Srv.readFromSource, if_neg hok]
          rw [this]
          exact ⟨rfl, rfl, .inr (by simpa using hok), _, rfl⟩
    | false =>
      rw [has_data_of hr]
      simp only [Bool.false_and, Bool.false_eq_true, if_false]
      cases hd : ((flagsOf h).written || (flagsOf h).hasSource) with
      | false => left; simp [Wire, STATUS_NO_DATA]
      | true =>
        simp only [Bool.not_true, Bool.false_eq_true, if_false, if_true]
        have hst := stripe_local hfl hr
        by_cases hok : s.devOk i = true
        · left
          have : s.readStripe i k = some (s.volume.stripe k) := by rw [Srv.readStripe, if_pos hok, hst]; rfl
          rw [this]
          exact sendStripe_some (stripe_length hs k)
        · right
          have : s.readStripe i k = none := by rw [Srv.readStripe, if_neg hok]
          rw [this]
          exact ⟨rfl, rfl, .inl (by simpa using hok), _, rfl⟩

theorem metadataSize_bounds (m : Meta) (h : m.headers.length < 2 ^ 32) : 512 ≤ metadataSize m ∧ metadataSize m < 2 ^ 64 ∧ metadataSize m % 512 = 0 := by
  have : metadataSize m = 512 + (m.headers.length + 508 - 1) / 508 * 512 := rfl
  omega

theorem handleMetadata_ok {s : Srv} (hm : Saveable s.md) :
    Wire (.metadata s.md) s.handleMetadata.1 ∧ s.handleMetadata.2 = true := by
  have hb := metadataSize_bounds s.md hm.2.2.2.2
  obtain ⟨b, h1, h2, -, h4⟩ := C01_save_load s.md (zeros (metadataSize s.md)) hm (by simp) (by simpa using hb.2.2)
  rw [zeros_length] at h2
  simp only [Srv.handleMetadata, h1]
  refine ⟨⟨b, h2, h4, ?_⟩, trivial⟩
  rw [h2]; rfl

/-! ## Sessions -/

theorem handleSingle_congr {s : Srv} {i : Nat} {cs cs' : List Bytes} (h : cs.flatten = cs'.flatten) :
    (s.handleSingle i cs).out = (s.handleSingle i cs').out ∧
    (s.handleSingle i cs).goOn = (s.handleSingle i cs').goOn ∧
    (s.handleSingle i cs).rest.flatten = (s.handleSingle i cs').rest.flatten := by
  have key : ∀ (a b : List Bytes) n, a.flatten = b.flatten →
      (readExact n a = none ∧ readExact n b = none) ∨
      ∃ r a' b', readExact n a = some (r, a') ∧ readExact n b = some (r, b') ∧ a'.flatten = b'.flatten := by
    intro a b n hab
    by_cases hn : a.flatten.length < n
    · exact .inl ⟨(readExact_eq a n).1 hn, (readExact_eq b n).1 (hab ▸ hn)⟩
    · obtain ⟨a', h1, h2⟩ := (readExact_eq a n).2 (by omega)
      obtain ⟨b', h3, h4⟩ := (readExact_eq b n).2 (by rw [← hab]; omega)
      exact .inr ⟨_, a', b', h1, by rw [h3, hab], by rw [h2, h4, hab]⟩
  unfold Srv.handleSingle
  rcases key cs cs' 1 h with ⟨h1, h2⟩ | ⟨r, a, b, h1, h2, h3⟩
  · rw [h1, h2]; exact ⟨rfl, rfl, rfl⟩
  · rw [h1, h2]
    simp only
    split
    · exact ⟨rfl, rfl, h3⟩
    · split
      · exact ⟨rfl, rfl, h3⟩
      · split
        · rcases key a b 8 h3 with ⟨g1, g2⟩ | ⟨r', a', b', g1, g2, g3⟩
          · rw [g1, g2]; exact ⟨rfl, rfl, rfl⟩
          · rw [g1, g2]; exact ⟨rfl, rfl, g3⟩
        · exact ⟨rfl, rfl, h3⟩

theorem serveN_congr {s : Srv} : ∀ {n i : Nat} {cs cs' : List Bytes}, cs.flatten = cs'.flatten →
    s.serveN n i cs = s.serveN n i cs' := by
  intro n
  induction n with
  | zero => intros; rfl
  | succ n ih =>
    intro i cs cs' h
    obtain ⟨h1, h2, h3⟩ := handleSingle_congr (s := s) (i := i) h
    simp only [Srv.serveN]
    rw [h1, h2, ih h3]

/-- The reply to a complete command, and the stream after it. -/
def Srv.reply (s : Srv) (i : Nat) : Cmd → Bytes × Bool
  | .hello => Srv.handleHello
  | .metadata => s.handleMetadata
  | .read k => s.handleRead i k
  | .unknown _ => ([STATUS_INVALID_COMMAND], true)

theorem handleSingle_cmd {s : Srv} {i : Nat} {c : Cmd} (hc : c.Ok) {cs : List Bytes} {r : Bytes} (h : cs.flatten = c.bytes ++ r) :
    ∃ cs', s.handleSingle i cs = ⟨(s.reply i c).1, cs', (s.reply i c).2⟩ ∧ cs'.flatten = r := by
  cases c with
  | hello =>
    obtain ⟨cs', h1, h2⟩ := readExact_append (a := [2]) h
    exact ⟨cs', by simp [Srv.handleSingle, show readExact 1 cs = some ([2], cs') from h1, Srv.reply, HELLO_CMD], h2⟩
  | metadata =>
    obtain ⟨cs', h1, h2⟩ := readExact_append (a := [0]) h
    exact ⟨cs', by simp [Srv.handleSingle, show readExact 1 cs = some ([0], cs') from h1, Srv.reply, HELLO_CMD, METADATA_CMD], h2⟩
  | unknown op =>
    obtain ⟨cs', h1, h2⟩ := readExact_append (a := [op]) h
    obtain ⟨n0, n1, n2⟩ := hc
    exact ⟨cs', by simp [Srv.handleSingle, show readExact 1 cs = some ([op], cs') from h1, Srv.reply, HELLO_CMD, METADATA_CMD, READ_STRIPE_CMD, n0, n1, n2], h2⟩
  | read k =>
    obtain ⟨cs', h1, h2⟩ := readExact_append (a := [1]) (r := le 8 k ++ r) h
    obtain ⟨cs'', h3, h4⟩ := readExact_append' (le_length 8 k) h2
    have hk : fromLe (le 8 k) = k := fromLe_le_of_lt (by have : k < 2 ^ 64 := hc; omega)
    refine ⟨cs'', ?_, h4⟩
    have h1' : readExact 1 cs = some ([1], cs') := h1
    have : ¬ (1 : UInt8) = 2 := by decide
    have : ¬ (1 : UInt8) = 0 := by decide
    simp only [Srv.handleSingle, h1', List.headD_cons, HELLO_CMD, METADATA_CMD, READ_STRIPE_CMD, *, if_false, if_true, hk, Srv.reply]

theorem handleSingle_incomplete {s : Srv} {i : Nat} {cs : List Bytes} (h : Incomplete cs.flatten) :
    (s.handleSingle i cs).out = [] ∧ (s.handleSingle i cs).goOn = false := by
  rcases h with h | ⟨u, h, hu⟩
  · have : readExact 1 cs = none := (readExact_eq cs 1).1 (by rw [h]; simp)
    simp [Srv.handleSingle, this]
  · obtain ⟨cs', h1, h2⟩ := readExact_append (a := [1]) (r := u) (cs := cs) h
    have h1' : readExact 1 cs = some ([1], cs') := h1
    have h8 : readExact 8 cs' = none := (readExact_eq cs' 8).1 (by rw [h2]; exact hu)
    have : ¬ (1 : UInt8) = 2 := by decide
    have : ¬ (1 : UInt8) = 0 := by decide
    simp only [Srv.handleSingle, h1', List.headD_cons, HELLO_CMD, METADATA_CMD, READ_STRIPE_CMD, *, if_false, if_true, and_self]

/-- Every byte string is a sequence of complete commands followed by an incomplete one. -/
theorem parse_exists (bs : Bytes) : ∃ (cmds : List Cmd) (t : Bytes), bs = cmds.flatMap Cmd.bytes ++ t ∧ (∀ c ∈ cmds, c.Ok) ∧ Incomplete t := by
  induction hn : bs.length using Nat.strongRecOn generalizing bs with
  | _ n ih =>
    have step : ∀ (c : Cmd) (r : Bytes), c.Ok → bs = c.bytes ++ r → 0 < c.bytes.length →
        ∃ (cmds : List Cmd) (t : Bytes), bs = cmds.flatMap Cmd.bytes ++ t ∧ (∀ c ∈ cmds, c.Ok) ∧ Incomplete t := by
      intro c r hc hb hl
      obtain ⟨cmds, t, h1, h2, h3⟩ := ih r.length (by rw [← hn, hb, List.length_append]; omega) r rfl
      refine ⟨c :: cmds, t, by rw [hb, h1]; simp, ?_, h3⟩
      intro d hd
      rcases List.mem_cons.1 hd with rfl | hd
      · exact hc
      · exact h2 d hd
    cases bs with
    | nil => exact ⟨[], [], rfl, by simp, .inl rfl⟩
    | cons op r =>
      by_cases h0 : op = 0
      · subst h0; exact step .metadata r trivial rfl (by decide)
      by_cases h2 : op = 2
      · subst h2; exact step .hello r trivial rfl (by decide)
      by_cases h1 : op = 1
      · subst h1
        by_cases h8 : r.length < 8
        · exact ⟨[], _, rfl, by simp, .inr ⟨r, rfl, h8⟩⟩
        · have hl : (r.take 8).length = 8 := by simp; omega
          have hle : le 8 (fromLe (r.take 8)) = r.take 8 := by
            have := le_fromLe (r.take 8); rwa [hl] at this
          refine step (.read (fromLe (r.take 8))) (r.drop 8) ?_ ?_ (by simp [Cmd.bytes])
          · have := fromLe_lt (r.take 8)
            rw [hl] at this
            exact this
          · simp only [Cmd.bytes, hle]
            simp
      · exact step (.unknown op) r ⟨h0, h1, h2⟩ rfl (by simp [Cmd.bytes])

theorem cmd_head {c : Cmd} (hc : c.Ok) : ∃ op u, c.bytes = op :: u ∧
    ((op = 1 ∧ u.length = 8 ∧ c = .read (fromLe u)) ∨ (op ≠ 1 ∧ u = [])) := by
  cases c with
  | hello => exact ⟨2, [], rfl, .inr ⟨by decide, rfl⟩⟩
  | metadata => exact ⟨0, [], rfl, .inr ⟨by decide, rfl⟩⟩
  | read k =>
    refine ⟨1, le 8 k, rfl, .inl ⟨rfl, le_length _ _, ?_⟩⟩
    rw [fromLe_le_of_lt (by have : k < 2 ^ 64 := hc; omega)]
  | unknown op => exact ⟨op, [], rfl, .inr ⟨hc.2.1, rfl⟩⟩

theorem cmd_of_bytes {c d : Cmd} (hc : c.Ok) (hd : d.Ok) {r r' : Bytes} (h : c.bytes ++ r = d.bytes ++ r') : c = d ∧ r = r' := by
  cases c <;> cases d <;> simp only [Cmd.bytes, List.cons_append, List.nil_append, List.cons.injEq] at h <;>
    simp only [Cmd.Ok, true_and] at hc hd <;> first
    | exact ⟨rfl, h.2⟩
    | (exfalso; have := h.1; revert this; decide)
    | (exfalso; obtain ⟨h, -⟩ := h; subst h; exact absurd rfl (by first | exact hc.1 | exact hc.2.1 | exact hc.2.2 | exact hd.1 | exact hd.2.1 | exact hd.2.2))
    | skip
  · obtain ⟨-, h⟩ := h
    have := List.append_inj h (by simp)
    have e := le_inj (n := 8) (by omega) (by omega) this.1
    subst e
    exact ⟨rfl, this.2⟩
  · obtain ⟨h, h'⟩ := h; subst h; exact ⟨rfl, h'⟩

theorem cmd_not_incomplete {c : Cmd} (hc : c.Ok) {r t : Bytes} (h : c.bytes ++ r = t) : ¬ Incomplete t := by
  obtain ⟨op, u, hb, ho⟩ := cmd_head hc
  rw [hb] at h
  subst h
  rintro (h | ⟨w, h, hw⟩)
  · simp at h
  · simp only [List.cons_append, List.cons.injEq] at h
    rcases ho with ⟨-, hl, -⟩ | ⟨h1, -⟩
    · have := congrArg List.length h.2
      simp at this; omega
    · exact h1 h.1

theorem parse_unique {cmds cmds' : List Cmd} {t t' : Bytes} (h : cmds.flatMap Cmd.bytes ++ t = cmds'.flatMap Cmd.bytes ++ t')
    (hc : ∀ c ∈ cmds, c.Ok) (hc' : ∀ c ∈ cmds', c.Ok) (ht : Incomplete t) (ht' : Incomplete t') : cmds = cmds' ∧ t = t' := by
  induction cmds generalizing cmds' with
  | nil =>
    cases cmds' with
    | nil => exact ⟨rfl, by simpa using h⟩
    | cons d ds =>
      exfalso
      simp only [List.flatMap_nil, List.nil_append, List.flatMap_cons, List.append_assoc] at h
      exact cmd_not_incomplete (hc' d List.mem_cons_self) h.symm ht
  | cons c cs ih =>
    cases cmds' with
    | nil =>
      exfalso
      simp only [List.flatMap_nil, List.nil_append, List.flatMap_cons, List.append_assoc] at h
      exact cmd_not_incomplete (hc c List.mem_cons_self) h ht'
    | cons d ds =>
      simp only [List.flatMap_cons, List.append_assoc] at h
      obtain ⟨e, h⟩ := cmd_of_bytes (hc c List.mem_cons_self) (hc' d List.mem_cons_self) h
      obtain ⟨e1, e2⟩ := ih h (fun c h => hc c (List.mem_cons_of_mem _ h)) (fun c h => hc' c (List.mem_cons_of_mem _ h))
      exact ⟨by rw [e, e1], e2⟩

/-- The replies of a session to a sequence of commands: one each, until one ends the session. -/
def Srv.replies (s : Srv) : Nat → List Cmd → List Bytes
  | _, [] => []
  | i, c :: cs => (s.reply i c).1 :: (if (s.reply i c).2 then s.replies (i + 1) cs else [])

theorem replies_go {s : Srv} {i : Nat} {c : Cmd} (cs : List Cmd) (h : (s.reply i c).2 = true) :
    s.replies i (c :: cs) = (s.reply i c).1 :: s.replies (i + 1) cs := by rw [Srv.replies, if_pos h]

theorem replies_stop {s : Srv} {i : Nat} {c : Cmd} (cs : List Cmd) (h : (s.reply i c).2 = false) :
    s.replies i (c :: cs) = [(s.reply i c).1] := by rw [Srv.replies, if_neg (by rw [h]; decide)]

theorem serveN_replies {s : Srv} {t : Bytes} (ht : Incomplete t) (cmds : List Cmd) :
    ∀ (n i : Nat) (cs : List Bytes), (∀ c ∈ cmds, c.Ok) → cs.flatten = cmds.flatMap Cmd.bytes ++ t → cmds.length < n →
      s.serveN n i cs = (s.replies i cmds).flatten := by
  induction cmds with
  | nil =>
    intro n i cs _ hcs hn
    obtain ⟨n, rfl⟩ : ∃ m, n = m + 1 := ⟨n - 1, by omega⟩
    have := handleSingle_incomplete (s := s) (i := i) (cs := cs) (by rw [hcs]; simpa using ht)
    simp [Srv.serveN, this, Srv.replies]
  | cons c cmds ih =>
    intro n i cs hc hcs hn
    obtain ⟨n, rfl⟩ : ∃ m, n = m + 1 := ⟨n - 1, by omega⟩
    rw [List.flatMap_cons, List.append_assoc] at hcs
    obtain ⟨cs', h1, h2⟩ := handleSingle_cmd (s := s) (i := i) (hc c List.mem_cons_self) hcs
    simp only [Srv.serveN, h1, Srv.replies, List.flatten_cons]
    congr 1
    split
    · exact ih n (i + 1) cs' (fun d hd => hc d (List.mem_cons_of_mem _ hd)) h2 (by simp at hn; omega)
    · rfl

theorem cmds_length {cmds : List Cmd} (hc : ∀ c ∈ cmds, c.Ok) : cmds.length ≤ (cmds.flatMap Cmd.bytes).length := by
  induction cmds with
  | nil => simp
  | cons c cs ih =>
    obtain ⟨op, u, hb, -⟩ := cmd_head (hc c List.mem_cons_self)
    have := ih fun c h => hc c (List.mem_cons_of_mem _ h)
    simp only [List.flatMap_cons, List.length_append, hb, List.length_cons]
    omega

theorem serve_replies {s : Srv} {t : Bytes} (ht : Incomplete t) {cmds : List Cmd} (hc : ∀ c ∈ cmds, c.Ok) {cs : List Bytes}
    (hcs : cs.flatten = cmds.flatMap Cmd.bytes ++ t) : s.serve cs = (s.replies 0 cmds).flatten := by
  refine serveN_replies ht cmds _ 0 cs hc hcs ?_
  have := cmds_length hc
  rw [hcs, List.length_append]; omega

/-! ## The client -/

/-- How `fetch_stripe` reports an answer to a read. -/
def clientView : Answer → Except CErr Bytes
  | .data d => .ok d
  | .invalidStripe => .error .invalidStripe
  | .noData => .error .unavailable
  | .notFetched => .error .unavailable
  | .serverError => .error (.remoteStatus 0xFF)
  | .badCommand => .error (.remoteStatus 0xFE)
  | .hello _ => .error .protocol
  | .metadata _ => .error .protocol

theorem clientFetch_status {m : Meta} {st : UInt8} {cs : List Bytes} {r : Bytes} (hcs : cs.flatten = [st] ++ r) (h0 : st ≠ 0) :
    ∃ cs', cs'.flatten = r ∧ clientFetch (some m) cs =
      (.error (if st = 1 then .invalidStripe else if st = 2 ∨ st = 3 then .unavailable else .remoteStatus st), cs') := by
  obtain ⟨cs', h1, h2⟩ := readExact_append' (n := 1) rfl hcs
  refine ⟨cs', h2, ?_⟩
  by_cases a : st = 1
  · simp [clientFetch, recv, h1, STATUS_OK, STATUS_INVALID_STRIPE, a]
  · by_cases b : st = 2 ∨ st = 3
    · simp [clientFetch, recv, h1, STATUS_OK, STATUS_INVALID_STRIPE, STATUS_NO_DATA, STATUS_NOT_FETCHED, h0, a, b]
    · simp [clientFetch, recv, h1, STATUS_OK, STATUS_INVALID_STRIPE, STATUS_NO_DATA, STATUS_NOT_FETCHED, h0, a, b]

theorem clientFetch_data {m : Meta} {d : Bytes} (hd : d.length = stripeSize m) (hsz : stripeSize m < 2 ^ 64) {cs : List Bytes} {r : Bytes}
    (hcs : cs.flatten = (0 :: le 8 d.length ++ d) ++ r) :
    ∃ cs', cs'.flatten = r ∧ clientFetch (some m) cs = (.ok d, cs') := by
  have hcs' : cs.flatten = [0] ++ (le 8 d.length ++ (d ++ r)) := by rw [hcs]; simp
  obtain ⟨c1, h1, g1⟩ := readExact_append' (n := 1) rfl hcs'
  obtain ⟨c2, h2, g2⟩ := readExact_append' (le_length 8 _) g1
  obtain ⟨c3, h3, g3⟩ := readExact_append' hd g2
  refine ⟨c3, g3, ?_⟩
  have hle : fromLe (le 8 d.length) = stripeSize m := by rw [hd]; exact fromLe_le_of_lt (by omega)
  simp only [clientFetch, recv, h1, h2, h3, List.headD_cons, STATUS_OK, if_true, hle, ne_eq, not_true_eq_false, if_false]

theorem stripeSize_lt {m : Meta} (h : m.shift.toNat ≤ 17) : stripeSize m < 2 ^ 64 := by
  have : 2 ^ m.shift.toNat ≤ 2 ^ 17 := Nat.pow_le_pow_right (by decide) h
  simp only [stripeSize, stripeSectorCount]
  omega

theorem clientMetadata_ok {m : Meta} {w : Bytes} (hm : Saveable m) (hmax : metadataSize m ≤ 64 * 2 ^ 20) (hw : Wire (.metadata m) w)
    {cs : List Bytes} {r : Bytes} (hcs : cs.flatten = w ++ r) :
    ∃ cs', cs'.flatten = r ∧ clientMetadata cs = (.ok m, cs') := by
  obtain ⟨b, hl, hb, rfl⟩ := hw
  have hbd := metadataSize_bounds m hm.2.2.2.2
  have hcs' : cs.flatten = [0] ++ (le 8 b.length ++ (b ++ r)) := by rw [hcs]; simp
  obtain ⟨c1, h1, g1⟩ := readExact_append' (n := 1) rfl hcs'
  obtain ⟨c2, h2, g2⟩ := readExact_append' (le_length 8 _) g1
  obtain ⟨c3, h3, g3⟩ := readExact_append g2
  refine ⟨c3, g3, ?_⟩
  have hle : fromLe (le 8 b.length) = b.length := fromLe_le_of_lt (by omega)
  have n1 : ¬ b.length < SECTOR_SIZE := by omega
  have n2 : ¬ b.length > MAX_REMOTE_METADATA_SIZE := by simp only [MAX_REMOTE_METADATA_SIZE]; omega
  simp only [clientMetadata, recv, h1, h2, List.headD_cons, STATUS_OK, ne_eq, not_true_eq_false, if_false, hle, n1, n2, h3, decodeMeta, hb]

theorem clientMetadata_big {m : Meta} {w : Bytes} (hm : Saveable m) (hmax : 64 * 2 ^ 20 < metadataSize m) (hw : Wire (.metadata m) w)
    {cs : List Bytes} {r : Bytes} (hcs : cs.flatten = w ++ r) : (clientMetadata cs).1 = .error .protocol := by
  obtain ⟨b, hl, hb, rfl⟩ := hw
  have hbd := metadataSize_bounds m hm.2.2.2.2
  have hcs' : cs.flatten = [0] ++ (le 8 b.length ++ (b ++ r)) := by rw [hcs]; simp
  obtain ⟨c1, h1, g1⟩ := readExact_append' (n := 1) rfl hcs'
  obtain ⟨c2, h2, g2⟩ := readExact_append' (le_length 8 _) g1
  have hle : fromLe (le 8 b.length) = b.length := fromLe_le_of_lt (by omega)
  have n1 : ¬ b.length < SECTOR_SIZE := by omega
  have n2 : b.length > MAX_REMOTE_METADATA_SIZE := by simp only [MAX_REMOTE_METADATA_SIZE]; omega
  simp only [clientMetadata, recv, h1, h2, List.headD_cons, STATUS_OK, ne_eq, not_true_eq_false, if_false, hle, n1, n2, if_true]

theorem clientHello_ok {v : Nat} (hv : v < 2 ^ 32) {cs : List Bytes} {r : Bytes} (hcs : cs.flatten = (0 :: le 4 v) ++ r) :
    ∃ cs', cs'.flatten = r ∧ clientHello cs = (if v = 1 then .ok () else .error .protocol, cs') := by
  have hcs' : cs.flatten = [0] ++ (le 4 v ++ r) := by rw [hcs]; simp
  obtain ⟨c1, h1, g1⟩ := readExact_append' (n := 1) rfl hcs'
  obtain ⟨c2, h2, g2⟩ := readExact_append' (le_length 4 _) g1
  refine ⟨c2, g2, ?_⟩
  have hle : fromLe (le 4 v) = v := fromLe_le_of_lt (by omega)
  have : ¬ (0 : UInt8) = 0xFE := by decide
  simp only [clientHello, recv, h1, h2, List.headD_cons, STATUS_OK, STATUS_INVALID_COMMAND, ne_eq, not_true_eq_false, if_false, hle, this,
    PROTOCOL_VERSION]
  by_cases hv1 : v = 1
  · simp [hv1]
  · simp [hv1]

end Verif.Remote
