import Verif.Proof.Remote

/-! # C30–C32: the stripe protocol

`Srv.serve s cs` is what a session of the server sends when its stream delivers the chunks `cs`; `clientConnect` and
`clientFetch` decode the stream the client receives. Commands, answers, their encoding (`Wire`) and the answer a volume
calls for (`Volume.answer`) are specified in Spec/Remote. -/

set_option maxRecDepth 8000

namespace Verif.Remote
open Verif Verif.Metadata Verif.Disk

/-- A served volume for the examples: stripes of two sectors; stripe 0 written, 1 only in the image, 2 empty, 3 fetched. -/
def demoSrv : Srv :=
  { md := { Meta.new 1 4 0 with headers := [2, 4, 0, 5] }
    dev := fun x => List.replicate 512 (UInt8.ofNat x)
    devOk := fun _ => true
    src := some fun x => List.replicate 512 (UInt8.ofNat (100 + x))
    srcOk := fun _ => true }

theorem demoSrv_sized : demoSrv.Sized := by
  refine ⟨fun x => by simp [demoSrv], ?_⟩
  rintro f hf x
  simp only [demoSrv, Option.some.injEq] at hf
  subst hf
  simp

theorem demoSrv_saveable : Saveable demoSrv.md := ⟨rfl, rfl, rfl, by decide, by decide⟩

/-! ## C31 -/

/-- **C31** If the reads it needs succeed, the server answers a read of stripe `k` as the volume calls for: with the
stripe's current contents exactly when it was written or has a source (and its data are at hand), with "no data" if it
has neither, with "invalid" out of range. -/
theorem C31_answer (s : Srv) (hs : s.Sized) (i k : Nat) (hd : s.devOk i = true) (hi : s.srcOk i = true) :
    Wire (s.volume.answer k) (s.handleRead i k).1 ∧ (s.handleRead i k).2 = true := by
  rcases handleRead_ok hs i k with h | ⟨-, -, h, -⟩
  · exact h
  · rcases h with h | h <;> simp_all

/-- **C31** If a read fails, the server says so and ends the session; it never sends anything else in place of the
stripe. -/
theorem C31_failure (s : Srv) (hs : s.Sized) (i k : Nat) :
    (Wire (s.volume.answer k) (s.handleRead i k).1 ∧ (s.handleRead i k).2 = true) ∨
    (Wire .serverError (s.handleRead i k).1 ∧ (s.handleRead i k).2 = false ∧ ∃ d, s.volume.answer k = .data d) := by
  rcases handleRead_ok hs i k with h | ⟨h1, h2, -, h3⟩
  · exact .inl h
  · exact .inr ⟨h1, h2, h3⟩

/-- **C31**, spelled out for the server: when it sends data, and which. -/
theorem C31_data_iff (s : Srv) (k : Nat) (d : Bytes) :
    s.volume.answer k = .data d ↔
      s.volume.stripe k = d ∧ ∃ h, s.md.headers[k]? = some h ∧ ((flagsOf h).written = true ∨ (flagsOf h).hasSource = true) ∧
        ((flagsOf h).hasSource = true → (flagsOf h).fetched = false → s.src ≠ none) := by
  have hfl : s.volume.flags[k]? = (s.md.headers[k]?).map flagsOf := by simp [Srv.volume]
  unfold Volume.answer
  rw [hfl]
  cases s.md.headers[k]? with
  | none => simp
  | some h =>
    have : s.volume.image = s.src := rfl
    simp only [Option.map_some, Option.some.injEq, this, Flags.remote]
    cases s.src with
    | none =>
      cases hf : (flagsOf h).fetched <;> cases hw : (flagsOf h).written <;> cases hh : (flagsOf h).hasSource <;>
        simp [hf, hw, hh]
    | some f =>
      cases hf : (flagsOf h).fetched <;> cases hw : (flagsOf h).written <;> cases hh : (flagsOf h).hasSource <;>
        simp [hf, hw, hh]

/-- Sector by sector: a stripe whose data are only in the image shows the image, every other stripe the local disk. -/
theorem C31_sector (s : Srv) (x : Nat) (h : UInt8) (hh : s.md.headers[x / stripeSectorCount s.md]? = some h) :
    (∀ im, s.src = some im → (flagsOf h).hasSource = true → (flagsOf h).fetched = false → s.volume.sector x = im x) ∧
    ((flagsOf h).hasSource = false ∨ (flagsOf h).fetched = true → s.volume.sector x = s.dev x) := by
  have hfl : s.volume.flags[x / s.volume.ss]? = some (flagsOf h) := by
    show (s.md.headers.map flagsOf)[x / stripeSectorCount s.md]? = _
    rw [List.getElem?_map, hh]; rfl
  constructor
  · intro im him h1 h2
    have : s.volume.image = some im := him
    rw [Volume.sector, hfl, this]
    simp [Flags.remote, h1, h2]
  · intro h1
    rw [Volume.sector, hfl]
    cases s.volume.image with
    | none => rfl
    | some im =>
      have : (flagsOf h).remote = false := by rcases h1 with h1 | h1 <;> simp [Flags.remote, h1]
      simp [this]; rfl

example : demoSrv.volume.answer 0 = .data (List.replicate 512 0 ++ List.replicate 512 1) ∧
    demoSrv.volume.answer 1 = .data (List.replicate 512 102 ++ List.replicate 512 103) ∧
    demoSrv.volume.answer 2 = .noData ∧
    demoSrv.volume.answer 3 = .data (List.replicate 512 6 ++ List.replicate 512 7) ∧
    demoSrv.volume.answer 4 = .invalidStripe := by
  refine ⟨?_, ?_, ?_, ?_, ?_⟩ <;>
    simp [demoSrv, Srv.volume, Volume.answer, Volume.stripe, Volume.sector, flagsOf, Flags.remote, stripeSectorCount, Meta.new,
      List.range_succ]

example : Wire (demoSrv.volume.answer 1) (demoSrv.handleRead 0 1).1 :=
  (C31_answer demoSrv demoSrv_sized 0 1 rfl rfl).1

/-! ## C32 -/

/-- The session `s` answers the commands, starting with its `i`-th, with the given replies: one for each command, in
order, well-formed and of the right kind; a failed read is answered with an error, which is the last reply. -/
inductive InStep (s : Srv) : Nat → List Cmd → List Bytes → Prop where
  | done (i : Nat) : InStep s i [] []
  | hello {i cs w ws} : Wire (.hello 1) w → InStep s (i + 1) cs ws → InStep s i (.hello :: cs) (w :: ws)
  | metadata {i cs w ws} : Wire (.metadata s.md) w → InStep s (i + 1) cs ws → InStep s i (.metadata :: cs) (w :: ws)
  | read {i cs w ws k} : Wire (s.volume.answer k) w → InStep s (i + 1) cs ws → InStep s i (.read k :: cs) (w :: ws)
  | failed {i cs w k} : s.devOk i = false ∨ s.srcOk i = false → Wire .serverError w → InStep s i (.read k :: cs) [w]
  | unknown {i cs w ws op} : Wire .badCommand w → InStep s (i + 1) cs ws → InStep s i (.unknown op :: cs) (w :: ws)

theorem replies_inStep {s : Srv} (hs : s.Sized) (hm : Saveable s.md) (cmds : List Cmd) :
    ∀ i, InStep s i cmds (s.replies i cmds) := by
  induction cmds with
  | nil => intro i; exact .done i
  | cons c cs ih =>
    intro i
    cases c with
    | hello => exact .hello rfl (ih (i + 1))
    | metadata =>
      have h := handleMetadata_ok hm
      rw [replies_go (c := .metadata) cs h.2]
      exact .metadata h.1 (ih (i + 1))
    | unknown op => exact .unknown rfl (ih (i + 1))
    | read k =>
      rcases handleRead_ok hs i k with h | h
      · rw [replies_go (c := .read k) cs h.2]; exact .read h.1 (ih (i + 1))
      · rw [replies_stop (c := .read k) cs h.2.1]; exact .failed h.2.2.1 h.1

/-- **C32** Whatever bytes arrive and however they are split into reads: they are a sequence of complete commands,
followed by an incomplete one, in exactly one way, and what the server sends is one well-formed reply for each complete
command, in order, up to a reply that reports a failed read; the incomplete command produces nothing. -/
theorem C32_in_step (s : Srv) (hs : s.Sized) (hm : Saveable s.md) (cs : List Bytes) :
    ∃ cmds t ws, (cs.flatten = cmds.flatMap Cmd.bytes ++ t ∧ (∀ c ∈ cmds, c.Ok) ∧ Incomplete t) ∧
      s.serve cs = ws.flatten ∧ InStep s 0 cmds ws ∧
      ∀ cmds' t', cs.flatten = cmds'.flatMap Cmd.bytes ++ t' → (∀ c ∈ cmds', c.Ok) → Incomplete t' → cmds' = cmds ∧ t' = t := by
  obtain ⟨cmds, t, h1, h2, h3⟩ := parse_exists cs.flatten
  refine ⟨cmds, t, _, ⟨h1, h2, h3⟩, serve_replies h3 h2 h1, replies_inStep hs hm cmds 0, ?_⟩
  intro cmds' t' g1 g2 g3
  exact parse_unique (g1.symm.trans h1) g2 h2 g3 h3

/-- **C32** How the bytes are split into reads does not matter. -/
theorem C32_chunks (s : Srv) (cs cs' : List Bytes) (h : cs.flatten = cs'.flatten) : s.serve cs = s.serve cs' := by
  unfold Srv.serve
  rw [h]
  exact serveN_congr h

/-- **C32** An incomplete command changes nothing: the session answers as if it had not been sent. -/
theorem C32_incomplete_ignored (s : Srv) (cmds : List Cmd) (t : Bytes) (hc : ∀ c ∈ cmds, c.Ok) (ht : Incomplete t) (cs : List Bytes)
    (hcs : cs.flatten = cmds.flatMap Cmd.bytes ++ t) : s.serve cs = s.serve [cmds.flatMap Cmd.bytes] := by
  rw [serve_replies ht hc hcs, serve_replies (.inl rfl) hc (cs := [cmds.flatMap Cmd.bytes]) (by simp)]

/-- **C32** An unknown opcode costs one byte and one error reply. -/
theorem C32_unknown (s : Srv) (op : UInt8) (h : op ≠ 0 ∧ op ≠ 1 ∧ op ≠ 2) (i : Nat) (cs : List Bytes) (r : Bytes)
    (hcs : cs.flatten = op :: r) :
    ∃ cs', s.handleSingle i cs = ⟨[0xFE], cs', true⟩ ∧ cs'.flatten = r :=
  handleSingle_cmd (c := .unknown op) h hcs

example : ∃ ws, demoSrv.serve [[2, 9], [1, 3, 0], [0, 0, 0, 0, 0, 0], [1, 7]] = ws.flatten ∧
    InStep demoSrv 0 [.hello, .unknown 9, .read 3] ws := by
  have ht : Incomplete [1, 7] := .inr ⟨[7], rfl, by decide⟩
  have hc : ∀ c ∈ [Cmd.hello, .unknown 9, .read 3], c.Ok := by
    intro c hc
    simp only [List.mem_cons, List.not_mem_nil, or_false] at hc
    rcases hc with rfl | rfl | rfl
    · trivial
    · exact ⟨by decide, by decide, by decide⟩
    · show 3 < 2 ^ 64; decide
  exact ⟨_, serve_replies ht hc (by decide), replies_inStep demoSrv_sized demoSrv_saveable _ 0⟩

/-! ## C30 -/

/-- **C30** The client's decoding of an encoded answer to a read is that answer, and it consumes exactly the answer. -/
theorem C30_fetch_decodes (m : Meta) (hm : Saveable m) (a : Answer) (w r : Bytes) (hw : Wire a w)
    (ha : (∃ d, a = .data d ∧ d.length = stripeSize m) ∨ a = .invalidStripe ∨ a = .noData ∨ a = .notFetched ∨ a = .serverError ∨
      a = .badCommand)
    (cs : List Bytes) (hcs : cs.flatten = w ++ r) :
    ∃ cs', cs'.flatten = r ∧ clientFetch (some m) cs = (clientView a, cs') := by
  rcases ha with ⟨d, rfl, hd⟩ | rfl | rfl | rfl | rfl | rfl
  · have hw : w = 0 :: le 8 d.length ++ d := hw
    subst hw
    exact clientFetch_data hd (stripeSize_lt hm.2.2.2.1) hcs
  all_goals
    have hw := hw
    simp only [Wire] at hw
    subst hw
    obtain ⟨cs', h1, h2⟩ := clientFetch_status (m := m) hcs (by decide)
    exact ⟨cs', h1, by rw [h2]; rfl⟩

/-- **C30** Different errors of the server are reported as different errors, except that "no data" and "not fetched"
both mean that the stripe is not available; and data are never confused with an error. -/
theorem C30_errors_distinct (a b : Answer) (ha : ∀ d, a ≠ .data d) (hr : a ∈ [Answer.invalidStripe, .noData, .notFetched, .serverError, .badCommand])
    (h : clientView a = clientView b) (hb : b ∈ [Answer.invalidStripe, .noData, .notFetched, .serverError, .badCommand] ∨ ∃ d, b = .data d) :
    a = b ∨ (a = .noData ∧ b = .notFetched) ∨ (a = .notFetched ∧ b = .noData) := by
  simp only [List.mem_cons, List.not_mem_nil, or_false] at hr hb
  rcases hr with rfl | rfl | rfl | rfl | rfl <;> rcases hb with (rfl | rfl | rfl | rfl | rfl) | ⟨d, rfl⟩ <;>
    simp_all [clientView]

theorem fetches_decode {s : Srv} (hs : s.Sized) (hm : Saveable s.md) (hd : ∀ i, s.devOk i = true) (hi : ∀ i, s.srcOk i = true)
    (ids : List Nat) : ∀ (i : Nat) (cs : List Bytes) (r : Bytes), cs.flatten = (s.replies i (ids.map .read)).flatten ++ r →
      clientFetches (some s.md) ids.length cs = ids.map fun k => clientView (s.volume.answer k) := by
  induction ids with
  | nil => intros; rfl
  | cons k ids ih =>
    intro i cs r hcs
    obtain ⟨h1, h2⟩ := C31_answer s hs i k (hd i) (hi i)
    rw [List.map_cons, replies_go (c := .read k) _ h2, List.flatten_cons, List.append_assoc] at hcs
    have ha : (∃ d, s.volume.answer k = .data d ∧ d.length = stripeSize s.md) ∨ s.volume.answer k = .invalidStripe ∨
        s.volume.answer k = .noData ∨ s.volume.answer k = .notFetched ∨ s.volume.answer k = .serverError ∨ s.volume.answer k = .badCommand := by
      cases hans : s.volume.answer k with
      | data d =>
        left
        refine ⟨d, rfl, ?_⟩
        rw [← ((C31_data_iff s k d).1 hans).1]
        exact stripe_length hs k
      | hello v => simp only [Volume.answer] at hans; split at hans <;> (try split at hans) <;> (try split at hans) <;> simp at hans
      | metadata v => simp only [Volume.answer] at hans; split at hans <;> (try split at hans) <;> (try split at hans) <;> simp at hans
      | _ => simp
    obtain ⟨cs', h3, h4⟩ := C30_fetch_decodes s.md hm _ _ _ h1 ha cs hcs
    simp only [List.length_cons, clientFetches, List.map_cons, h4]
    rw [ih (i + 1) cs' r h3]

/-- **C30** A whole conversation: a client that connects, receives the metadata and reads any stripes, over streams
split in any way, gets the server's metadata unchanged and for each read the volume's answer, in order. -/
theorem C30_conversation (s : Srv) (hs : s.Sized) (hm : Saveable s.md) (hmax : metadataSize s.md ≤ 64 * 2 ^ 20)
    (hd : ∀ i, s.devOk i = true) (hi : ∀ i, s.srcOk i = true) (ids : List Nat) (hids : ∀ k ∈ ids, k < 2 ^ 64)
    (toServer toClient : List Bytes)
    (hto : toServer.flatten = [HELLO_CMD] ++ [METADATA_CMD] ++ ids.flatMap readRequest)
    (hfrom : toClient.flatten = s.serve toServer) :
    ∃ rest, clientConnect toClient = (.ok s.md, rest) ∧
      clientFetches (some s.md) ids.length rest = ids.map fun k => clientView (s.volume.answer k) := by
  have hcmds : toServer.flatten = (Cmd.hello :: .metadata :: ids.map .read).flatMap Cmd.bytes ++ [] := by
    rw [hto]
    simp only [List.flatMap_cons, Cmd.bytes, List.append_nil, List.flatMap_map]
    rfl
  have hok : ∀ c ∈ (Cmd.hello :: .metadata :: ids.map .read), c.Ok := by
    intro c hc
    simp only [List.mem_cons, List.mem_map] at hc
    rcases hc with rfl | rfl | ⟨k, hk, rfl⟩
    · trivial
    · trivial
    · exact hids k hk
  rw [serve_replies (.inl rfl) hok hcmds] at hfrom
  obtain ⟨hw, hg⟩ := handleMetadata_ok hm
  rw [replies_go (c := .hello) _ rfl, replies_go (c := .metadata) _ hg, List.flatten_cons, List.flatten_cons] at hfrom
  have hf1 : toClient.flatten = (0 :: le 4 1) ++ (s.handleMetadata.1 ++ (s.replies (0 + 1 + 1) (ids.map .read)).flatten) := by
    rw [hfrom]; rfl
  obtain ⟨c1, g1, e1⟩ := clientHello_ok (by decide) hf1
  obtain ⟨c2, g2, e2⟩ := clientMetadata_ok hm hmax hw g1
  refine ⟨c2, ?_, fetches_decode hs hm hd hi ids 2 c2 [] (by rw [g2]; simp)⟩
  rw [clientConnect, e1]
  simp only [if_true, e2]

/-- **C30**, the limit: metadata of more than 64 MiB are refused, not misread. -/
theorem C30_large_metadata_refused (m : Meta) (hm : Saveable m) (w r : Bytes) (hw : Wire (.metadata m) w) (hmax : 64 * 2 ^ 20 < metadataSize m)
    (cs : List Bytes) (hcs : cs.flatten = w ++ r) : (clientMetadata cs).1 = .error .protocol :=
  clientMetadata_big hm hmax hw hcs

/-- **C30** A server of another protocol version, or one too old to know the hello command, is refused. -/
theorem C30_version (cs : List Bytes) (r : Bytes) :
    (∀ v, v < 2 ^ 32 → v ≠ 1 → cs.flatten = (0 :: le 4 v) ++ r → (clientHello cs).1 = .error .protocol) ∧
    (cs.flatten = [0xFE] ++ r → (clientHello cs).1 = .error .protocol) := by
  constructor
  · intro v hv h1 hcs
    obtain ⟨cs', -, h⟩ := clientHello_ok hv hcs
    rw [h, if_neg h1]
  · intro hcs
    obtain ⟨cs', h1, -⟩ := readExact_append' (n := 1) rfl hcs
    simp [clientHello, recv, h1, STATUS_INVALID_COMMAND]

/-- **C30** A stream cut anywhere inside an answer gives an I/O error, never wrong data. -/
theorem C30_cut (m : Meta) (hm : Saveable m) (d : Bytes) (hd : d.length = stripeSize m) (cs : List Bytes) (n : Nat)
    (hn : n < (0 :: le 8 d.length ++ d).length) (hcs : cs.flatten = (0 :: le 8 d.length ++ d).take n) :
    (clientFetch (some m) cs).1 = .error .io := by
  have hlen : cs.flatten.length = n := by rw [hcs]; simp only [List.length_take]; omega
  have hsz := stripeSize_lt hm.2.2.2.1
  have hle : fromLe (le 8 d.length) = stripeSize m := by rw [hd]; exact fromLe_le_of_lt (by omega)
  simp only [List.cons_append, List.length_cons, List.length_append, le_length] at hn
  by_cases h0 : n < 1
  · have : readExact 1 cs = none := (readExact_eq cs 1).1 (by omega)
    simp [clientFetch, recv, this]
  · obtain ⟨m1, rfl⟩ : ∃ q, n = q + 1 := ⟨n - 1, by omega⟩
    have hcs1 : cs.flatten = [0] ++ (le 8 d.length ++ d).take m1 := by rw [hcs]; rfl
    obtain ⟨c1, h1, g1⟩ := readExact_append' (n := 1) rfl hcs1
    have l1 : c1.flatten.length = m1 := by
      rw [g1]; simp only [List.length_take, List.length_append, le_length]; omega
    by_cases h8 : m1 < 8
    · have : readExact 8 c1 = none := (readExact_eq c1 8).1 (by omega)
      simp [clientFetch, recv, h1, this, STATUS_OK]
    · have g1' : c1.flatten = le 8 d.length ++ d.take (m1 - 8) := by
        rw [g1, List.take_append, List.take_of_length_le (by simp; omega), le_length]
      obtain ⟨c2, h2, g2⟩ := readExact_append' (le_length 8 _) g1'
      have : readExact (stripeSize m) c2 = none := (readExact_eq c2 _).1 (by
        rw [g2, List.length_take]; omega)
      simp [clientFetch, recv, h1, h2, this, STATUS_OK, hle]

example : ∃ rest, clientConnect [demoSrv.serve [[2, 0] ++ readRequest 3 ++ readRequest 2]] = (.ok demoSrv.md, rest) ∧
    clientFetches (some demoSrv.md) 2 rest =
      [.ok (List.replicate 512 6 ++ List.replicate 512 7), .error .unavailable] := by
  obtain ⟨rest, h1, h2⟩ := C30_conversation demoSrv demoSrv_sized demoSrv_saveable (by decide) (fun _ => rfl) (fun _ => rfl)
    [3, 2] (by decide) [[2, 0] ++ readRequest 3 ++ readRequest 2] [_] (by simp [HELLO_CMD, METADATA_CMD]) (by simp; rfl)
  refine ⟨rest, h1, ?_⟩
  rw [show ([3, 2] : List Nat).length = 2 from rfl] at h2
  rw [h2]
  simp [demoSrv, Srv.volume, Volume.answer, Volume.stripe, Volume.sector, flagsOf, Flags.remote, stripeSectorCount, Meta.new,
      List.range_succ, clientView]

end Verif.Remote
