import Verif.Model.RemoteLate
import Verif.Props.RemoteSource

/-! # C92: a stripe from a stripe server is the stripe that was asked for

`work expected c js` is what a worker of the remote stripe source sends for the requests `js`, from connection `c` on; each request
carries what the network does meanwhile. `Volume.answer` (Spec/Remote) is what a volume has to say about a stripe. -/

set_option maxRecDepth 8000

namespace Verif.RemoteLate
open Verif Verif.Metadata Verif.Remote

/-! ## Specification -/

/-- A session of a well-formed server that serves the volume. -/
def Serves (V : Volume) (s : Srv) : Prop := s.Sized ∧ Saveable s.md ∧ s.volume = V

/-- A request for a stripe id of 64 bits; whoever is dialled serves the volume. -/
def Job.Ok (V : Volume) (j : Job) : Prop := j.k < 2 ^ 64 ∧ ∀ i s u, j.dial i = .up s u → Serves V s

/-- The result comes from an answer of the server, and not from a failure to get one. -/
def Reached : Except CErr Bytes → Bool
  | .ok _ => true
  | .error .invalidStripe => true
  | .error .unavailable => true
  | .error (.remoteStatus _) => true
  | .error _ => false

/-- The result is what the volume has to say about stripe `k`, or the server could not read it. -/
def Right (V : Volume) (k : Nat) (r : Except CErr Bytes) : Prop :=
  match V.answer k with
  | .data d => r = .ok d ∨ r = .error (.remoteStatus 0xFF)
  | .invalidStripe => r = .error .invalidStripe
  | _ => r = .error .unavailable

/-! ## The client reads no further than it must -/

/-- A reader whose result, unless it ran out of bytes, does not depend on what comes after. -/
def Ext {α} (f : List Bytes → Call α) : Prop :=
  ∀ cs r rest, f cs = (r, rest) → r ≠ .error .io → ∀ cs' t, cs'.flatten = cs.flatten ++ t →
    ∃ rest', f cs' = (r, rest') ∧ rest'.flatten = rest.flatten ++ t

theorem ext_const {α} (r : Except CErr α) : Ext fun cs => (r, cs) := by
  intro cs r' rest h _ cs' t hc
  cases h
  exact ⟨cs', rfl, hc⟩

theorem ext_recv {α} (n : Nat) (g : Bytes → List Bytes → Call α) (hg : ∀ b, Ext (g b)) : Ext fun cs => recv n cs g := by
  intro cs r rest h hr cs' t hc
  simp only [recv] at h
  cases he : readExact n cs with
  | none => rw [he] at h; simp only [Prod.mk.injEq] at h; exact absurd h.1.symm hr
  | some p =>
    obtain ⟨b, cs1⟩ := p
    rw [he] at h
    have hle : n ≤ cs.flatten.length := by
      by_cases hl : cs.flatten.length < n
      · rw [(readExact_eq cs n).1 hl] at he; cases he
      · omega
    obtain ⟨c1, h1, h2⟩ := (readExact_eq cs n).2 hle
    rw [he, Option.some.injEq, Prod.mk.injEq] at h1
    obtain ⟨rfl, rfl⟩ := h1
    obtain ⟨c2, h3, h4⟩ := (readExact_eq cs' n).2 (by rw [hc, List.length_append]; omega)
    have e1 : cs'.flatten.take n = cs.flatten.take n := by rw [hc, List.take_append_of_le_length hle]
    have e2 : c2.flatten = cs1.flatten ++ t := by rw [h4, hc, h2, List.drop_append_of_le_length hle]
    obtain ⟨rest', g1, g2⟩ := hg _ cs1 r rest h hr c2 t e2
    exact ⟨rest', by simp only [recv, h3, e1]; exact g1, g2⟩

theorem ext_ite {α} (p : Prop) [Decidable p] {f g : List Bytes → Call α} (hf : Ext f) (hg : Ext g) :
    Ext fun cs => if p then f cs else g cs := by
  by_cases h : p
  · simpa only [if_pos h] using hf
  · simpa only [if_neg h] using hg

theorem ext_fetch (m : Meta) : Ext (clientFetch (some m)) := by
  unfold clientFetch
  refine ext_recv 1 _ fun st => ext_ite _ (ext_recv 8 _ fun szb => ext_ite _ (ext_const _) (ext_recv _ _ fun d => ext_const _))
    (ext_ite _ (ext_const _) (ext_ite _ (ext_const _) (ext_const _)))

theorem ext_metadata : Ext clientMetadata := by
  unfold clientMetadata
  exact ext_recv 1 _ fun st => ext_ite _ (ext_const _) (ext_recv 8 _ fun szb => ext_ite _ (ext_const _) (ext_ite _ (ext_const _)
    (ext_recv _ _ fun b => ext_const _)))

theorem ext_hello : Ext clientHello := by
  unfold clientHello
  exact ext_recv 1 _ fun st => ext_ite _ (ext_const _) (ext_ite _ (ext_const _) (ext_recv 4 _ fun v => ext_ite _ (ext_const _) (ext_const _)))

theorem ext_connect : Ext clientConnect := by
  intro cs r rest h hr cs' t hc
  unfold clientConnect at h ⊢
  cases hh : clientHello cs with
  | mk a c1 =>
    rw [hh] at h
    cases a with
    | error e =>
      simp only [Prod.mk.injEq] at h
      obtain ⟨rfl, rfl⟩ := h
      obtain ⟨rest', g1, g2⟩ := ext_hello cs _ c1 hh (by intro h; cases h; exact hr rfl) cs' t hc
      exact ⟨rest', by rw [g1], g2⟩
    | ok u =>
      obtain ⟨rest', g1, g2⟩ := ext_hello cs _ c1 hh (by intro h; cases h) cs' t hc
      rw [g1]
      exact ext_metadata c1 r rest h hr rest' t g2

/-! ## A session answers request by request -/

/-- No reply to the commands ends the session. -/
def goesOn (s : Srv) : Nat → List Cmd → Bool
  | _, [] => true
  | i, c :: cs => (s.reply i c).2 && goesOn s (i + 1) cs

theorem replies_snoc (s : Srv) (c : Cmd) (cmds : List Cmd) : ∀ i,
    s.replies i (cmds ++ [c]) = s.replies i cmds ++ (if goesOn s i cmds then [(s.reply (i + cmds.length) c).1] else []) := by
  induction cmds with
  | nil => intro i; simp [Srv.replies, goesOn]
  | cons d cmds ih =>
    intro i
    have hl : i + 1 + cmds.length = i + (d :: cmds).length := by rw [List.length_cons]; omega
    simp only [List.cons_append, Srv.replies, goesOn]
    by_cases h : (s.reply i d).2 = true
    · simp only [h, if_true, ih (i + 1), Bool.true_and, hl]
    · simp [h]

theorem serve_snoc (s : Srv) {cmds : List Cmd} (hc : ∀ x ∈ cmds, x.Ok) {c : Cmd} (h : c.Ok) :
    s.serve [cmds.flatMap Cmd.bytes ++ c.bytes] =
      s.serve [cmds.flatMap Cmd.bytes] ++ (if goesOn s 0 cmds then (s.reply cmds.length c).1 else []) := by
  rw [serve_replies (t := []) (cmds := cmds ++ [c]) (.inl rfl) (by
      intro x hx; rw [List.mem_append, List.mem_singleton] at hx; rcases hx with hx | rfl; exact hc x hx; exact h) (by simp),
    serve_replies (t := []) (cmds := cmds) (.inl rfl) hc (by simp), replies_snoc]
  rw [Nat.zero_add, List.flatten_append]
  congr 1
  split <;> simp

theorem readRequest_bytes (k : Nat) : readRequest k = (Cmd.read k).bytes := rfl

theorem readRequest_length (k : Nat) : (readRequest k).length = 9 := by simp [readRequest]

theorem handshake_ok : ∀ x ∈ [Cmd.hello, .metadata], x.Ok := by
  intro x hx
  simp only [List.mem_cons, List.not_mem_nil, or_false] at hx
  rcases hx with rfl | rfl <;> trivial

theorem handshake_serve {s : Srv} (hm : Saveable s.md) :
    s.serve [handshake] = (0 :: le 4 1) ++ s.handleMetadata.1 := by
  rw [serve_replies (t := []) (cmds := [.hello, .metadata]) (.inl rfl) handshake_ok rfl]
  rw [replies_go (c := .hello) _ rfl, Srv.replies]
  have : (if (s.reply (0 + 1) .metadata).2 then s.replies (0 + 1 + 1) [] else []) = [] := by split <;> rfl
  rw [this]
  simp [Srv.reply, Srv.handleHello, STATUS_OK, PROTOCOL_VERSION]

/-- A connection with nothing outstanding: everything asked has been answered, and every answer read. -/
def Clean (c : Conn) : Prop :=
  ∃ cmds : List Cmd, (∀ x ∈ cmds, x.Ok) ∧ c.sent = cmds.flatMap Cmd.bytes ∧ c.got = (c.srv.serve [c.sent]).length ∧
    c.inbox.flatten = [] ∧ c.md = c.srv.md

/-- The handshake with a server gives a connection with nothing outstanding, or an error that no answer to a read gives. -/
theorem connect_clean {V : Volume} {s : Srv} (hs : Serves V s) (u : Nat) :
    (∃ c, connect (.up s u) = .ok c ∧ Clean c ∧ c.srv = s) ∨
    connect (.up s u) = .error .io ∨ connect (.up s u) = .error .protocol := by
  obtain ⟨-, hm, -⟩ := hs
  obtain ⟨hw, hg⟩ := handleMetadata_ok hm
  have hfull := handshake_serve hm
  simp only [connect]
  cases hc : clientConnect [(s.serve [handshake]).take u] with
  | mk a rest =>
    by_cases hio : a = .error .io
    · subst hio; exact .inr (.inl rfl)
    obtain ⟨rest', g1, g2⟩ := ext_connect _ _ _ hc hio [s.serve [handshake]] ((s.serve [handshake]).drop u) (by simp)
    obtain ⟨c1, f1, f2⟩ := clientHello_ok (v := 1) (by decide) (cs := [s.serve [handshake]]) (r := s.handleMetadata.1) (by simp [hfull])
    rw [if_pos rfl] at f2
    simp only [clientConnect, f2] at g1
    by_cases hmax : metadataSize s.md ≤ 64 * 2 ^ 20
    · obtain ⟨c2, e1, e2⟩ := clientMetadata_ok hm hmax hw (r := []) (cs := c1) (by simpa using f1)
      rw [e2] at g1
      simp only [Prod.mk.injEq] at g1
      obtain ⟨rfl, rfl⟩ := g1
      rw [e1] at g2
      have g3 := List.append_eq_nil_iff.1 g2.symm
      refine .inl ⟨_, rfl, ⟨[.hello, .metadata], handshake_ok, rfl, ?_, g3.1, rfl⟩, rfl⟩
      have := List.drop_eq_nil_iff.1 g3.2
      show min u (s.serve [handshake]).length = (s.serve [handshake]).length
      omega
    · have := clientMetadata_big hm (by omega) hw (r := []) (cs := c1) (by simpa using f1)
      rw [g1] at this
      simp only at this
      subst this
      exact .inr (.inr rfl)

theorem right_of_view {V : Volume} {k : Nat} {r : Except CErr Bytes} (h : r = clientView (V.answer k)) : Right V k r := by
  subst h
  unfold Right
  have := @Volume.answer V k
  cases ha : V.answer k <;> simp only [clientView] <;> simp_all [Volume.answer] <;> (try split at ha) <;> (try split at ha) <;> (try split at ha) <;> simp_all

/-- The answer to a read and how the client sees it. -/
theorem read_answer {V : Volume} {s : Srv} (hs : Serves V s) (i k : Nat) (t : Bytes) (cs : List Bytes)
    (hcs : cs.flatten = (s.handleRead i k).1 ++ t) :
    ∃ r rest, clientFetch (some s.md) cs = (r, rest) ∧ rest.flatten = t ∧ Right V k r ∧ r ≠ .error .io ∧
      ((s.handleRead i k).2 = true → r = clientView (V.answer k)) := by
  obtain ⟨hz, hm, rfl⟩ := hs
  have hok : ∀ k, (∃ d, s.volume.answer k = .data d ∧ d.length = stripeSize s.md) ∨ s.volume.answer k = .invalidStripe ∨
      s.volume.answer k = .noData ∨ s.volume.answer k = .notFetched ∨ s.volume.answer k = .serverError ∨ s.volume.answer k = .badCommand := by
    intro k
    cases hans : s.volume.answer k with
    | data d =>
      left
      refine ⟨d, rfl, ?_⟩
      rw [← ((C31_data_iff s k d).1 hans).1]
      exact stripe_length hz k
    | hello v => simp only [Volume.answer] at hans; split at hans <;> (try split at hans) <;> (try split at hans) <;> simp at hans
    | metadata v => simp only [Volume.answer] at hans; split at hans <;> (try split at hans) <;> (try split at hans) <;> simp at hans
    | _ => simp
  rcases C31_failure s hz i k with ⟨hw, hg⟩ | ⟨hw, hg, d, hd⟩
  · obtain ⟨cs', h1, h2⟩ := C30_fetch_decodes s.md hm _ _ _ hw (hok k) cs hcs
    refine ⟨_, _, h2, h1, right_of_view rfl, ?_, fun _ => rfl⟩
    rcases hok k with ⟨d, h, -⟩ | h | h | h | h | h <;> rw [h] <;> simp [clientView]
  · obtain ⟨cs', h1, h2⟩ := C30_fetch_decodes s.md hm .serverError _ _ hw (by simp) cs hcs
    refine ⟨_, _, h2, h1, ?_, by simp [clientView], fun h => by rw [hg] at h; cases h⟩
    simp [Right, hd, clientView]

/-- A fetch over a connection with nothing outstanding: no answer, or the right one, and then nothing is outstanding. -/
theorem fetch_clean {V : Volume} {c : Conn} (hs : Serves V c.srv) (hc : Clean c) {k : Nat} (hk : k < 2 ^ 64) (n : Net) :
    (fetch c k n).1.srv = c.srv ∧
    ((fetch c k n).2 = .error .io ∨ Right V k (fetch c k n).2 ∧ Clean (fetch c k n).1) := by
  obtain ⟨cmds, hok, hsent, hgot, hin, hmd⟩ := hc
  unfold fetch
  split
  · exact ⟨rfl, .inl rfl⟩
  rename_i hw
  refine ⟨rfl, ?_⟩
  have htake : (readRequest k).take n.wrote = (Cmd.read k).bytes := by
    rw [List.take_of_length_le (by omega), readRequest_bytes]
  have hsv := serve_snoc c.srv hok (c := .read k) hk
  rw [← hsent] at hsv
  simp only [Conn.exchange, htake]
  rw [hsv]
  generalize hwd : (if goesOn c.srv 0 cmds then (c.srv.reply cmds.length (.read k)).1 else []) = w at hsv ⊢
  have hnew : (List.take n.upTo (c.srv.serve [c.sent] ++ w)).drop c.got = w.take (n.upTo - (c.srv.serve [c.sent]).length) := by
    rw [hgot, List.take_append, List.drop_append]
    simp [List.length_take]
    by_cases h : n.upTo ≤ (c.srv.serve [c.sent]).length
    · simp [Nat.min_eq_left h, Nat.sub_eq_zero_of_le h, h]
    · simp [Nat.min_eq_right (by omega : (c.srv.serve [c.sent]).length ≤ n.upTo)]
  rw [hnew]
  cases hf : clientFetch (some c.md) (c.inbox ++ [w.take (n.upTo - (c.srv.serve [c.sent]).length)]) with
  | mk r rest =>
    by_cases hio : r = .error .io
    · exact .inl hio
    right
    obtain ⟨rest', g1, g2⟩ := ext_fetch c.md _ _ _ hf hio [w] (w.drop (n.upTo - (c.srv.serve [c.sent]).length)) (by simp [hin])
    by_cases hgo : goesOn c.srv 0 cmds = true
    · rw [if_pos hgo] at hwd
      obtain ⟨r', rest'', e1, e2, e3, -, -⟩ := read_answer hs cmds.length k [] [w] (by simp [← hwd, Srv.reply])
      rw [hmd, e1] at g1
      simp only [Prod.mk.injEq] at g1
      obtain ⟨rfl, rfl⟩ := g1
      rw [e2] at g2
      have g3 := List.append_eq_nil_iff.1 g2.symm
      refine ⟨e3, ⟨cmds ++ [.read k], ?_, by simp [hsent], ?_, g3.1, hmd⟩⟩
      · intro x hx
        rw [List.mem_append, List.mem_singleton] at hx
        rcases hx with hx | rfl
        · exact hok x hx
        · exact hk
      · show max _ _ = _
        have := List.drop_eq_nil_iff.1 g3.2
        simp only
        rw [hsv, hgot, List.length_append]
        omega
    · rw [if_neg hgo] at hwd
      subst hwd
      have : clientFetch (some c.md) [[]] = (.error .io, []) := by simp [clientFetch, recv, readExact]
      rw [this] at g1
      simp only [Prod.mk.injEq] at g1
      exact absurd g1.1.symm hio

/-- Errors a failed dial leaves. -/
def Lost (e : CErr) : Prop := e = .io ∨ e = .protocol ∨ e = .badParameter

theorem dial_clean {V : Volume} {j : Job} (hj : j.Ok V) (i : Nat) :
    (∃ c, connect (j.dial i) = .ok c ∧ Clean c ∧ Serves V c.srv) ∨ ∃ e, connect (j.dial i) = .error e ∧ Lost e := by
  cases hd : j.dial i with
  | refused io => exact .inr ⟨_, rfl, by cases io <;> simp [Lost]⟩
  | up s u =>
    have hs := hj.2 i s u hd
    rcases connect_clean hs u with ⟨c, h1, h2, h3⟩ | h | h
    · exact .inl ⟨c, h1, h2, h3 ▸ hs⟩
    · exact .inr ⟨_, h, .inl rfl⟩
    · exact .inr ⟨_, h, .inr (.inl rfl)⟩

theorem lost_not_reached {e : CErr} (h : Lost e) : Reached (.error e) = false := by
  rcases h with rfl | rfl | rfl <;> rfl

/-- From any attempt on: an answer is the right one, and then nothing is outstanding. Only the first attempt depends on the connection
the worker comes with. -/
theorem loop_right {V : Volume} {j : Job} (hj : j.Ok V) (expected : Nat × Nat) (n : Nat) : ∀ (a : Nat) (c : Conn) (e : CErr),
    (a = 0 → Clean c ∧ Serves V c.srv) → Lost e → Reached (loop expected j n a c e).2 = true →
    Right V j.k (loop expected j n a c e).2 ∧ Clean (loop expected j n a c e).1 ∧ Serves V (loop expected j n a c e).1.srv := by
  induction n with
  | zero =>
    intro a c e _ he h
    simp only [loop, lost_not_reached he] at h
    cases h
  | succ n ih =>
    have step : ∀ (a : Nat) (c : Conn), Clean c → Serves V c.srv → Reached (match fetch c j.k (j.net a) with
          | (c', .error .io) => loop expected j n (a + 1) c' .io
          | (c', r) => (c', r)).2 = true →
        Right V j.k (match fetch c j.k (j.net a) with
          | (c', .error .io) => loop expected j n (a + 1) c' .io
          | (c', r) => (c', r)).2 ∧ Clean (match fetch c j.k (j.net a) with
          | (c', .error .io) => loop expected j n (a + 1) c' .io
          | (c', r) => (c', r)).1 ∧ Serves V (match fetch c j.k (j.net a) with
          | (c', .error .io) => loop expected j n (a + 1) c' .io
          | (c', r) => (c', r)).1.srv := by
      intro a c hc hs h
      have hf := fetch_clean hs hc hj.1 (j.net a)
      generalize fetch c j.k (j.net a) = p at hf h ⊢
      obtain ⟨c', r⟩ := p
      have key : r = .error .io ∨ (∀ {β : Type} (x : Conn → β) (y : Conn → Except CErr Bytes → β), (match (c', r) with
          | (c', .error .io) => x c'
          | (c', r) => y c' r) = y c' r) := by
        cases r with
        | ok d => exact .inr fun _ _ => rfl
        | error e => cases e <;> first | exact .inl rfl | exact .inr fun _ _ => rfl
      rcases key with rfl | key
      · exact ih (a + 1) c' .io (by omega) (.inl rfl) h
      · rw [key (fun c' => loop expected j n (a + 1) c' .io) (fun c' r => (c', r))] at h ⊢
        rcases hf.2 with h' | h'
        · simp only at h' h; rw [h'] at h; cases h
        · exact ⟨h'.1, h'.2, by rw [hf.1]; exact hs⟩
    intro a c e hc he h
    by_cases ha : a = 0
    · rw [loop, if_pos ha] at h ⊢
      exact step a c (hc ha).1 (hc ha).2 h
    · rw [loop, if_neg ha] at h ⊢
      rcases dial_clean hj a with ⟨f, h1, h2, h3⟩ | ⟨e', h1, h2⟩
      · rw [h1] at h ⊢
        simp only at h ⊢
        by_cases hfp : fingerprint f.md = expected
        · rw [if_pos hfp] at h ⊢
          exact step a f h2 h3 h
        · rw [if_neg hfp] at h
          cases h
      · rw [h1] at h ⊢
        exact ih (a + 1) c e' (by omega) h2 h

/-! ## C92 -/

/-- **C92**, as far as it goes: a worker that starts with a connection to the server, all dials reaching servers of the same volume,
and a network that delivers when it wants and breaks when it wants. As long as every earlier request to this worker got an answer of
the server, in whichever attempt, an answer to this one is what the volume has to say about the stripe that was asked for (or the server
could not read it); in particular data are this stripe's. -/
theorem C92_right_partial (V : Volume) (s : Srv) (hs : Serves V s) (u : Nat) (c : Conn) (hc : connect (.up s u) = .ok c) (expected : Nat × Nat)
    (js : List Job) (hj : ∀ j ∈ js, j.Ok V) (i : Nat) (j : Job) (hi : js[i]? = some j) (r : Except CErr Bytes)
    (hr : (work expected c js)[i]? = some r) (hb : ∀ i' < i, ∀ r', (work expected c js)[i']? = some r' → Reached r' = true)
    (h : Reached r = true) : Right V j.k r ∧ ∀ d, r = .ok d → V.answer j.k = .data d := by
  have main : ∀ (js : List Job) (c : Conn) (i : Nat), Clean c → Serves V c.srv → (∀ j ∈ js, j.Ok V) → js[i]? = some j →
      (work expected c js)[i]? = some r → (∀ i' < i, ∀ r', (work expected c js)[i']? = some r' → Reached r' = true) → Right V j.k r := by
    intro js
    induction js with
    | nil => intro c i _ _ _ h; simp at h
    | cons j' js ih =>
      intro c i hc hs hj hi hr hb
      have hl := loop_right (hj j' List.mem_cons_self) expected (MAX_ATTEMPTS + 1) 0 c .io (fun _ => ⟨hc, hs⟩) (.inl rfl)
      cases i with
      | zero =>
        simp only [List.getElem?_cons_zero, Option.some.injEq, work] at hi hr
        subst hi hr
        exact (hl h).1
      | succ i =>
        have h0 := hb 0 (by omega) _ (by simp [work]; rfl)
        have := hl h0
        simp only [List.getElem?_cons_succ, work] at hi hr
        refine ih _ i this.2.1 this.2.2 (fun j h => hj j (List.mem_cons_of_mem _ h)) hi hr fun i' hi' r' hr' => ?_
        exact hb (i' + 1) (by omega) r' hr'
  rcases connect_clean hs u with ⟨c', h1, h2, h3⟩ | h1 | h1 <;> rw [hc] at h1
  · cases h1
    have hR := main js c i h2 (h3 ▸ hs) hj hi hr hb
    refine ⟨hR, fun d hd => ?_⟩
    subst hd
    unfold Right at hR
    cases ha : V.answer j.k <;> rw [ha] at hR <;> simp at hR
    rw [hR]
  · cases h1
  · cases h1

/-- **C92** Whatever state the worker's connection is in: if it fails and the answer comes over a connection dialled for this request,
then it is the right one. -/
theorem C92_redialled (V : Volume) (expected : Nat × Nat) (c : Conn) (j : Job) (hj : j.Ok V) (h0 : (fetch c j.k (j.net 0)).2 = .error .io)
    (h : Reached (fetchWithReconnect expected c j).2 = true) :
    Right V j.k (fetchWithReconnect expected c j).2 ∧ ∀ d, (fetchWithReconnect expected c j).2 = .ok d → V.answer j.k = .data d := by
  have key : fetchWithReconnect expected c j = loop expected j MAX_ATTEMPTS 1 (fetch c j.k (j.net 0)).1 .io := by
    rw [fetchWithReconnect, loop, if_pos rfl]
    generalize fetch c j.k (j.net 0) = p at h0
    obtain ⟨c', r⟩ := p
    simp only at h0
    subst h0
    rfl
  rw [key] at h ⊢
  have hR := (loop_right hj expected MAX_ATTEMPTS 1 _ .io (by omega) (.inl rfl) h).1
  refine ⟨hR, fun d hd => ?_⟩
  rw [hd] at hR
  unfold Right at hR
  cases ha : V.answer j.k <;> rw [ha] at hR <;> simp at hR
  rw [hR]

/-- How C33 sees the result of a fetch. -/
def asRes : Except CErr Bytes → FetchRes
  | .ok d => .ok d
  | .error e => .err e

/-- **C92** The loop is the one of C33, its connections now with bytes on them: at most ten dials, one fetch over each, and so on. -/
theorem C92_reconnect (expected : Nat × Nat) (c : Conn) (j : Job) :
    (fetchWithReconnect expected c j).2 = (Remote.fetchWithReconnect ⟨some c.md, asRes (fetch c j.k (j.net 0)).2⟩
      (fun i => (connect (j.dial (i + 1))).map fun f => ⟨some f.md, asRes (fetch f j.k (j.net (i + 1))).2⟩) expected).val := by
  have main : ∀ (n a : Nat) (c : Conn) (rc : Remote.Conn) (e : CErr) (delay slept : Nat),
      (loop expected j n (a + 1) c e).2 = (fetchLoop (fun i => (connect (j.dial (i + 1))).map fun f =>
        ⟨some f.md, asRes (fetch f j.k (j.net (i + 1))).2⟩) expected n (a + 1) rc e delay a slept).val := by
    intro n
    induction n with
    | zero => intros; rfl
    | succ n ih =>
      intro a c rc e delay slept
      rw [loop, fetchLoop, if_neg (by omega), if_neg (by omega)]
      cases hd : connect (j.dial (a + 1)) with
      | error e' => exact ih (a + 1) c rc e' _ _
      | ok f =>
        simp only [Except.map, Option.map_some, Option.some.injEq]
        by_cases hfp : fingerprint f.md = expected
        · rw [if_pos hfp, if_pos hfp]
          generalize fetch f j.k (j.net (a + 1)) = p
          obtain ⟨c', r⟩ := p
          cases r with
          | ok d => rfl
          | error e => cases e <;> first | rfl | exact ih (a + 1) _ _ _ _ _
        · rw [if_neg hfp, if_neg hfp]
  rw [fetchWithReconnect, Remote.fetchWithReconnect, loop, fetchLoop, if_pos rfl, if_pos rfl]
  generalize fetch c j.k (j.net 0) = p
  obtain ⟨c', r⟩ := p
  cases r with
  | ok d => rfl
  | error e => cases e <;> first | rfl | exact main _ 0 _ _ _ _ _

/-! ## What a late answer does -/

/-- A request during which the network is down: it takes the request, delivers nothing, and no dial succeeds. -/
def down (k : Nat) : Job := ⟨k, fun _ => .refused true, fun _ => ⟨9, 0⟩⟩

/-- A request during which the network is up again. -/
def prompt (u k : Nat) : Job := ⟨k, fun _ => .refused true, fun _ => ⟨9, u⟩⟩

/-- One answer is outstanding: the one about stripe `k`. -/
def Behind (c : Conn) (k : Nat) : Prop :=
  ∃ cmds : List Cmd, ∃ i, (∀ x ∈ cmds, x.Ok) ∧ c.sent = cmds.flatMap Cmd.bytes ∧ goesOn c.srv 0 cmds = true ∧
    c.got ≤ (c.srv.serve [c.sent]).length ∧
    c.inbox.flatten ++ (c.srv.serve [c.sent]).drop c.got = (c.srv.handleRead i k).1 ∧ c.md = c.srv.md

theorem goesOn_snoc (s : Srv) (c : Cmd) (cmds : List Cmd) : ∀ i, goesOn s i cmds = true → (∀ i, (s.reply i c).2 = true) →
    goesOn s i (cmds ++ [c]) = true := by
  induction cmds with
  | nil => intro i _ h; simp [goesOn, h]
  | cons d cmds ih =>
    intro i h h'
    simp only [goesOn, Bool.and_eq_true, List.cons_append] at h ⊢
    exact ⟨h.1, ih _ h.2 h'⟩

/-- With the answer about stripe `k` outstanding, a request for stripe `k'` gets the answer about `k`, and then the answer about `k'`
is outstanding. -/
theorem behind_step {c : Conn} {k k' u : Nat} (hz : c.srv.Sized) (hm : Saveable c.srv.md) (hd : ∀ i, c.srv.devOk i = true)
    (hi : ∀ i, c.srv.srcOk i = true) (hk : k' < 2 ^ 64) (h : Behind c k) (hu : (c.srv.serve [c.sent ++ readRequest k']).length ≤ u) :
    (fetch c k' ⟨9, u⟩).2 = clientView (c.srv.volume.answer k) ∧ Behind (fetch c k' ⟨9, u⟩).1 k' ∧
    (fetch c k' ⟨9, u⟩).1.srv = c.srv ∧ (fetch c k' ⟨9, u⟩).1.sent = c.sent ++ readRequest k' := by
  obtain ⟨cmds, i, hok, hsent, hgo, hgot, hpend, hmd⟩ := h
  have hsv := serve_snoc c.srv hok (c := .read k') hk
  rw [← hsent, if_pos hgo] at hsv
  have htake : (readRequest k').take 9 = readRequest k' := List.take_of_length_le (Nat.le_of_eq (readRequest_length _))
  have hread : ∀ i k, (c.srv.handleRead i k).2 = true := fun i k => (C31_answer c.srv hz i k (hd i) (hi i)).2
  have hnew : (c.inbox ++ [((c.srv.serve [c.sent ++ readRequest k']).take u).drop c.got]).flatten =
      (c.srv.handleRead i k).1 ++ (c.srv.handleRead cmds.length k').1 := by
    rw [List.take_of_length_le hu, readRequest_bytes, hsv, List.drop_append_of_le_length hgot]
    rw [List.flatten_append, List.flatten_cons, List.flatten_nil, List.append_nil, ← List.append_assoc, hpend]
    rfl
  obtain ⟨r, rest, e1, e2, -, -, e5⟩ := read_answer (V := c.srv.volume) ⟨hz, hm, rfl⟩ i k _ _ hnew
  have e6 := e5 (hread i k)
  have hfe : fetch c k' ⟨9, u⟩ = ({ c.exchange (readRequest k') u with inbox := rest }, r) := by
    rw [fetch]
    simp only [readRequest_length, htake, Nat.lt_irrefl, if_false, Conn.exchange]
    rw [hmd, e1]
  rw [hfe]
  refine ⟨e6, ?_, rfl, rfl⟩
  refine ⟨cmds ++ [Cmd.read k'], cmds.length, ?_, ?_, goesOn_snoc _ (.read k') _ 0 hgo (fun i => hread i k'), ?_, ?_, hmd⟩
  · intro x hx
    rw [List.mem_append, List.mem_singleton] at hx
    rcases hx with hx | rfl
    · exact hok x hx
    · exact hk
  · simp [Conn.exchange, hsent, readRequest_bytes]
  · show max c.got (min u (c.srv.serve [c.sent ++ readRequest k']).length) ≤ (c.srv.serve [c.sent ++ readRequest k']).length
    rw [readRequest_bytes, hsv, List.length_append]
    omega
  · show rest.flatten ++ (c.srv.serve [c.sent ++ readRequest k']).drop (max c.got (min u (c.srv.serve [c.sent ++ readRequest k']).length)) = _
    rw [e2, List.drop_of_length_le (by omega), List.append_nil]
    rfl

/-- **C92**, the full claim is false, and not by accident: after a request during which the network is down for longer than the ten
dials take, and nothing of the answer arrived in time, the worker keeps its connection, and from then on every request to it is answered
with the stripe asked for before. `u` is how far the network delivers; `handshake` and the requests are what the worker has written. -/
theorem C92_false_behind (s : Srv) (hz : s.Sized) (hm : Saveable s.md) (hd : ∀ i, s.devOk i = true) (hi : ∀ i, s.srcOk i = true)
    (u₀ : Nat) (c : Conn) (hc : connect (.up s u₀) = .ok c) (expected : Nat × Nat) (k : Nat) (ks : List Nat) (hk : k < 2 ^ 64)
    (hks : ∀ k ∈ ks, k < 2 ^ 64) (u : Nat)
    (hu : ∀ ks' k', ks' ++ [k'] <+: ks → (s.serve [handshake ++ readRequest k ++ ks'.flatMap readRequest ++ readRequest k']).length ≤ u) :
    work expected c (down k :: ks.map (prompt u)) = .error .io :: ((k :: ks).dropLast).map fun k => clientView (s.volume.answer k) := by
  obtain ⟨c', h1, ⟨cmds, hok, hsent, hgot, hin, hmd⟩, h3⟩ | h1 | h1 := connect_clean (V := s.volume) ⟨hz, hm, rfl⟩ u₀ <;> rw [hc] at h1
  · cases h1
    subst h3
    have hsent' : c.sent = handshake := by
      simp only [connect] at hc
      split at hc
      · cases hc
      · simp only [Except.ok.injEq] at hc; rw [← hc]
    have hcm : cmds = [.hello, .metadata] := by
      have : cmds.flatMap Cmd.bytes ++ [] = [Cmd.hello, .metadata].flatMap Cmd.bytes ++ [] := by rw [← hsent, hsent']; rfl
      exact (parse_unique this hok handshake_ok (.inl rfl) (.inl rfl)).1
    have hread : ∀ i k, (c.srv.handleRead i k).2 = true := fun i k => (C31_answer c.srv hz i k (hd i) (hi i)).2
    have hgo : goesOn c.srv 0 cmds = true := by
      rw [hcm]
      simp [goesOn, Srv.reply, Srv.handleHello, (handleMetadata_ok hm).2]
    have htake : (readRequest k).take 9 = readRequest k := List.take_of_length_le (Nat.le_of_eq (readRequest_length _))
    have hsv := serve_snoc c.srv hok (c := .read k) hk
    rw [← hsent, if_pos hgo] at hsv
    -- the first request
    have hf : fetch c k ⟨9, 0⟩ = ({ c with sent := c.sent ++ readRequest k, inbox := [] }, .error .io) := by
      rw [fetch]
      simp only [readRequest_length, htake, Nat.lt_irrefl, if_false, Conn.exchange, List.take_zero, List.drop_nil]
      have : clientFetch (some c.md) (c.inbox ++ [[]]) = (.error .io, []) := by
        have : readExact 1 (c.inbox ++ [[]]) = none := (readExact_eq _ 1).1 (by simp [hin])
        simp [clientFetch, recv, this]
      rw [this]
      simp
    have hloop : ∀ (n a : Nat) (c : Conn), loop expected (down k) n (a + 1) c .io = (c, .error .io) := by
      intro n
      induction n with
      | zero => intros; rfl
      | succ n ih =>
        intro a c
        rw [loop, if_neg (by omega)]
        exact ih (a + 1) c
    have hw0 : fetchWithReconnect expected c (down k) = ({ c with sent := c.sent ++ readRequest k, inbox := [] }, .error .io) := by
      rw [fetchWithReconnect, loop, if_pos rfl]
      simp only [down, hf]
      exact hloop _ 0 _
    have hb : Behind { c with sent := c.sent ++ readRequest k, inbox := [] } k := by
      refine ⟨cmds ++ [.read k], cmds.length, ?_, by simp [hsent, readRequest_bytes], goesOn_snoc _ (.read k) _ 0 hgo (fun i => hread i k), ?_, ?_, hmd⟩
      · intro x hx
        rw [List.mem_append, List.mem_singleton] at hx
        rcases hx with hx | rfl
        · exact hok x hx
        · exact hk
      · show c.got ≤ (c.srv.serve [c.sent ++ readRequest k]).length
        rw [readRequest_bytes, hsv, hgot, List.length_append]
        omega
      · show [] ++ (c.srv.serve [c.sent ++ readRequest k]).drop c.got = _
        rw [readRequest_bytes, hsv, hgot]
        simp [Srv.reply]
    -- the others
    have rest : ∀ (ks : List Nat) (c' : Conn) (k : Nat), c'.srv = c.srv → Behind c' k → (∀ k ∈ ks, k < 2 ^ 64) →
        (∀ ks' k', ks' ++ [k'] <+: ks → (c.srv.serve [c'.sent ++ ks'.flatMap readRequest ++ readRequest k']).length ≤ u) →
        work expected c' (ks.map (prompt u)) = ((k :: ks).dropLast).map fun k => clientView (c.srv.volume.answer k) := by
      intro ks
      induction ks with
      | nil => intros; rfl
      | cons k' ks ih =>
        intro c' k hsrv hb hks hu
        have hu0 := hu [] k' (by simp)
        simp only [List.flatMap_nil, List.append_nil] at hu0
        obtain ⟨b1, b2, b3, b4⟩ := behind_step (u := u) (by rw [hsrv]; exact hz) (by rw [hsrv]; exact hm) (by rw [hsrv]; exact hd)
          (by rw [hsrv]; exact hi) (hks k' List.mem_cons_self) hb (by rw [hsrv]; exact hu0)
        have hnio : (fetch c' k' ⟨9, u⟩).2 ≠ .error .io := by
          rw [b1]
          obtain ⟨_, _, _, _, _, h, h'⟩ := read_answer (V := c'.srv.volume) (s := c'.srv) ⟨by rw [hsrv]; exact hz, by rw [hsrv]; exact hm, rfl⟩ 0 k [] [(c'.srv.handleRead 0 k).1] (by simp)
          rw [← h' (by rw [hsrv]; exact hread 0 k)]
          exact h
        have hstep : fetchWithReconnect expected c' (prompt u k') = fetch c' k' ⟨9, u⟩ := by
          rw [fetchWithReconnect, loop, if_pos rfl]
          simp only [prompt]
        rw [List.map_cons, work, hstep, b1, hsrv, List.dropLast_cons_cons, List.map_cons]
        congr 1
        refine ih _ k' (b3.trans hsrv) b2 (fun k h => hks k (List.mem_cons_of_mem _ h)) fun ks' k'' hp => ?_
        rw [b4]
        have := hu (k' :: ks') k'' (by simpa using hp)
        simpa [List.append_assoc] using this
    rw [work, hw0]
    congr 1
    refine rest ks _ k rfl hb hks fun ks' k' hp => ?_
    have := hu ks' k' hp
    rw [← hsent'] at this
    exact this
  · cases h1
  · cases h1

/-! ## With a network that delivers -/

theorem connect_full {V : Volume} {s : Srv} (hs : Serves V s) (hmax : metadataSize s.md ≤ 64 * 2 ^ 20) {u : Nat}
    (hu : (s.serve [handshake]).length ≤ u) : ∃ c, connect (.up s u) = .ok c ∧ Clean c ∧ c.srv = s ∧ c.sent = handshake := by
  obtain ⟨-, hm, -⟩ := id hs
  obtain ⟨c1, f1, f2⟩ := clientHello_ok (v := 1) (by decide) (cs := [(s.serve [handshake]).take u]) (r := s.handleMetadata.1)
    (by rw [List.take_of_length_le hu, handshake_serve hm]; simp)
  rw [if_pos rfl] at f2
  obtain ⟨c2, e1, e2⟩ := clientMetadata_ok hm hmax (handleMetadata_ok hm).1 (r := []) (cs := c1) (by simpa using f1)
  have hcc : clientConnect [(s.serve [handshake]).take u] = (.ok s.md, c2) := by simp only [clientConnect, f2, e2]
  rcases connect_clean hs u with ⟨c, h1, h2, h3⟩ | h1 | h1
  · refine ⟨c, h1, h2, h3, ?_⟩
    simp only [connect, hcc, Except.ok.injEq] at h1
    rw [← h1]
  · simp only [connect, hcc] at h1; cases h1
  · simp only [connect, hcc] at h1; cases h1

/-- Nothing is outstanding, and the session goes on. -/
def Ready (c : Conn) : Prop :=
  ∃ cmds : List Cmd, (∀ x ∈ cmds, x.Ok) ∧ c.sent = cmds.flatMap Cmd.bytes ∧ goesOn c.srv 0 cmds = true ∧
    c.got = (c.srv.serve [c.sent]).length ∧ c.inbox.flatten = [] ∧ c.md = c.srv.md

theorem ready_connect {s : Srv} (hm : Saveable s.md) {c : Conn} (hc : Clean c) (h3 : c.srv = s) (h4 : c.sent = handshake) : Ready c := by
  subst h3
  obtain ⟨cmds, hok, hsent, hgot, hin, hmd⟩ := hc
  have hcm : cmds = [.hello, .metadata] := by
    have : cmds.flatMap Cmd.bytes ++ [] = [Cmd.hello, .metadata].flatMap Cmd.bytes ++ [] := by rw [← hsent, h4]; rfl
    exact (parse_unique this hok handshake_ok (.inl rfl) (.inl rfl)).1
  refine ⟨cmds, hok, hsent, ?_, hgot, hin, hmd⟩
  rw [hcm]
  simp [goesOn, Srv.reply, Srv.handleHello, (handleMetadata_ok hm).2]

theorem ready_step {c : Conn} {k u : Nat} (hz : c.srv.Sized) (hm : Saveable c.srv.md) (hd : ∀ i, c.srv.devOk i = true)
    (hi : ∀ i, c.srv.srcOk i = true) (hk : k < 2 ^ 64) (h : Ready c) (hu : (c.srv.serve [c.sent ++ readRequest k]).length ≤ u) :
    (fetch c k ⟨9, u⟩).2 = clientView (c.srv.volume.answer k) ∧ (fetch c k ⟨9, u⟩).2 ≠ .error .io ∧ Ready (fetch c k ⟨9, u⟩).1 ∧
    (fetch c k ⟨9, u⟩).1.srv = c.srv ∧ (fetch c k ⟨9, u⟩).1.sent = c.sent ++ readRequest k := by
  obtain ⟨cmds, hok, hsent, hgo, hgot, hin, hmd⟩ := h
  have hsv := serve_snoc c.srv hok (c := .read k) hk
  rw [← hsent, if_pos hgo] at hsv
  have htake : (readRequest k).take 9 = readRequest k := List.take_of_length_le (Nat.le_of_eq (readRequest_length _))
  have hread : ∀ i k, (c.srv.handleRead i k).2 = true := fun i k => (C31_answer c.srv hz i k (hd i) (hi i)).2
  have hnew : (c.inbox ++ [((c.srv.serve [c.sent ++ readRequest k]).take u).drop c.got]).flatten = (c.srv.handleRead cmds.length k).1 ++ [] := by
    rw [List.take_of_length_le hu, readRequest_bytes, hsv, hgot]
    simp [hin, Srv.reply]
  obtain ⟨r, rest, e1, e2, -, e4, e5⟩ := read_answer (V := c.srv.volume) ⟨hz, hm, rfl⟩ _ k _ _ hnew
  have hfe : fetch c k ⟨9, u⟩ = ({ c.exchange (readRequest k) u with inbox := rest }, r) := by
    rw [fetch]
    simp only [readRequest_length, htake, Nat.lt_irrefl, if_false, Conn.exchange]
    rw [hmd, e1]
  rw [hfe]
  refine ⟨e5 (hread _ k), e4, ⟨cmds ++ [Cmd.read k], ?_, ?_, goesOn_snoc _ (.read k) _ 0 hgo (fun i => hread i k), ?_, e2, hmd⟩, rfl, rfl⟩
  · intro x hx
    rw [List.mem_append, List.mem_singleton] at hx
    rcases hx with hx | rfl
    · exact hok x hx
    · exact hk
  · simp [Conn.exchange, hsent, readRequest_bytes]
  · show max c.got (min u (c.srv.serve [c.sent ++ readRequest k]).length) = (c.srv.serve [c.sent ++ readRequest k]).length
    have : c.got ≤ (c.srv.serve [c.sent ++ readRequest k]).length := by rw [readRequest_bytes, hsv, hgot, List.length_append]; omega
    omega

/-- **C92** While the network delivers, all requests are answered, over one connection, each with what the volume has to say about the
stripe. -/
theorem C92_prompt (s : Srv) (hz : s.Sized) (hm : Saveable s.md) (hmax : metadataSize s.md ≤ 64 * 2 ^ 20) (hd : ∀ i, s.devOk i = true)
    (hi : ∀ i, s.srcOk i = true) (expected : Nat × Nat) (ks : List Nat) (hks : ∀ k ∈ ks, k < 2 ^ 64) (u : Nat)
    (hu : ∀ ks', ks' <+: ks → (s.serve [handshake ++ ks'.flatMap readRequest]).length ≤ u) :
    ∃ c, connect (.up s u) = .ok c ∧ work expected c (ks.map (prompt u)) = ks.map fun k => clientView (s.volume.answer k) := by
  obtain ⟨c, h1, h2, h3, h4⟩ := connect_full (V := s.volume) ⟨hz, hm, rfl⟩ hmax (u := u) (by simpa using hu [] (by simp))
  have hr := ready_connect hm h2 h3 h4
  subst h3
  refine ⟨c, h1, ?_⟩
  have rest : ∀ (ks : List Nat) (c' : Conn), c'.srv = c.srv → Ready c' → (∀ k ∈ ks, k < 2 ^ 64) →
      (∀ ks', ks' <+: ks → (c.srv.serve [c'.sent ++ ks'.flatMap readRequest]).length ≤ u) →
      work expected c' (ks.map (prompt u)) = ks.map fun k => clientView (c.srv.volume.answer k) := by
    intro ks
    induction ks with
    | nil => intros; rfl
    | cons k ks ih =>
      intro c' hsrv hr hks hu
      have hu0 := hu [k] (by simp)
      simp only [List.flatMap_cons, List.flatMap_nil, List.append_nil] at hu0
      obtain ⟨b1, bn, b2, b3, b4⟩ := ready_step (u := u) (by rw [hsrv]; exact hz) (by rw [hsrv]; exact hm) (by rw [hsrv]; exact hd)
        (by rw [hsrv]; exact hi) (hks k List.mem_cons_self) hr (by rw [hsrv]; exact hu0)
      have hstep : fetchWithReconnect expected c' (prompt u k) = fetch c' k ⟨9, u⟩ := by
        rw [fetchWithReconnect, loop, if_pos rfl]
        simp only [prompt]
      rw [List.map_cons, work, hstep, b1, hsrv, List.map_cons]
      congr 1
      refine ih _ (b3.trans hsrv) b2 (fun k h => hks k (List.mem_cons_of_mem _ h)) fun ks' hp => ?_
      rw [b4]
      have := hu (k :: ks') (by simpa using hp)
      simpa [List.append_assoc] using this
  exact rest ks c rfl hr hks fun ks' hp => by rw [h4]; exact hu ks' hp

/-! ## Examples -/

/-- **C92**, a counterexample to the full claim: the request for stripe 0 of the example volume fails, and the next one, for stripe 3,
succeeds with the data of stripe 0. -/
theorem C92_false_late : ∃ u c, connect (.up demoSrv u) = .ok c ∧
    work (2, 4) c [down 0, prompt u 3] = [.error .io, .ok (demoSrv.volume.stripe 0)] ∧
    demoSrv.volume.answer 3 = .data (demoSrv.volume.stripe 3) ∧ demoSrv.volume.stripe 0 ≠ demoSrv.volume.stripe 3 := by
  obtain ⟨c, h1, -, -, -⟩ := connect_full (V := demoSrv.volume) ⟨demoSrv_sized, demoSrv_saveable, rfl⟩ (by decide)
    (u := (demoSrv.serve [handshake]).length + (demoSrv.serve [handshake ++ readRequest 0 ++ readRequest 3]).length) (by omega)
  refine ⟨_, c, h1, ?_, rfl, ?_⟩
  · refine C92_false_behind demoSrv demoSrv_sized demoSrv_saveable (fun _ => rfl) (fun _ => rfl) _ c h1 (2, 4) 0 [3] (by decide)
      (by simp) _ fun ks' k' hp => ?_
    obtain ⟨rfl, rfl⟩ : ks' = [] ∧ k' = 3 := by
      have := hp.length_le
      cases ks' with
      | nil => simpa using hp
      | cons a t => simp at this
    simp only [List.flatMap_nil, List.append_nil]
    omega
  · intro h
    have : (demoSrv.volume.stripe 0).take 1 = (demoSrv.volume.stripe 3).take 1 := by rw [h]
    revert this
    decide +kernel

/-- The theorems apply: the network is down for the first attempt at stripe 3, a dial succeeds, and the answer is the right one. -/
example : ∃ u c j, connect (.up demoSrv u) = .ok c ∧ j.Ok demoSrv.volume ∧ j.k = 3 ∧ (fetch c j.k (j.net 0)).2 = .error .io ∧
    work (2, 4) c [j, prompt u 0] = [.ok (demoSrv.volume.stripe 3), .ok (demoSrv.volume.stripe 0)] := by
  let u := (demoSrv.serve [handshake]).length + (demoSrv.serve [handshake ++ readRequest 3]).length +
    (demoSrv.serve [handshake ++ readRequest 3 ++ readRequest 0]).length
  obtain ⟨c, h1, h2, h3, h4⟩ := connect_full (V := demoSrv.volume) ⟨demoSrv_sized, demoSrv_saveable, rfl⟩ (by decide) (u := u) (by omega)
  have hr := ready_connect demoSrv_saveable h2 h3 h4
  have step := fun (c : Conn) (k : Nat) (h3 : c.srv = demoSrv) => ready_step (c := c) (k := k) (u := u) (h3 ▸ demoSrv_sized)
    (h3 ▸ demoSrv_saveable) (fun _ => by rw [h3]; rfl) (fun _ => by rw [h3]; rfl)
  obtain ⟨a1, a2, a3, a4, a5⟩ := step c 3 h3 (by decide) hr (by rw [h3, h4]; omega)
  obtain ⟨b1, b2, -, -, -⟩ := step _ 0 (a4.trans h3) (by decide) a3 (by rw [a4, a5, h3, h4]; omega)
  rw [h3] at a1
  rw [a4, h3] at b1
  have hio : ∀ c', c'.inbox.flatten = [] → (fetch c' 3 ⟨9, 0⟩).2 = .error .io := by
    intro c' hin
    have : readExact 1 (c'.inbox ++ [[]]) = none := (readExact_eq _ 1).1 (by simp [hin])
    simp [fetch, readRequest_length, Conn.exchange, clientFetch, recv, this]
  have hin : c.inbox.flatten = [] := by obtain ⟨_, _, _, _, h, _⟩ := h2; exact h
  have hmd : fingerprint c.md = (2, 4) := by
    obtain ⟨_, _, _, _, _, h⟩ := h2
    rw [h, h3]; decide
  refine ⟨u, c, ⟨3, fun _ => .up demoSrv u, fun i => if i = 0 then ⟨9, 0⟩ else ⟨9, u⟩⟩, h1, ⟨by decide, ?_⟩, rfl, hio c hin, ?_⟩
  · intro i s u' h
    cases h
    exact ⟨demoSrv_sized, demoSrv_saveable, rfl⟩
  · have e1 : fetchWithReconnect (2, 4) c ⟨3, fun _ => .up demoSrv u, fun i => if i = 0 then ⟨9, 0⟩ else ⟨9, u⟩⟩ = fetch c 3 ⟨9, u⟩ := by
      have h0 := hio c hin
      rw [fetchWithReconnect, loop, if_pos rfl]
      simp only [if_true]
      generalize fetch c 3 ⟨9, 0⟩ = p at h0
      obtain ⟨x, r⟩ := p
      simp only at h0
      subst h0
      simp only [MAX_ATTEMPTS]
      rw [loop, if_neg (by decide)]
      simp only [h1, hmd, if_true]
      rw [if_neg (by decide)]
      generalize hp : fetch c 3 ⟨9, u⟩ = p at a2
      obtain ⟨x, r⟩ := p
      cases r with
      | ok d => rfl
      | error e => cases e <;> first | exact absurd rfl a2 | rfl
    have e2 : fetchWithReconnect (2, 4) (fetch c 3 ⟨9, u⟩).1 (prompt u 0) = fetch (fetch c 3 ⟨9, u⟩).1 0 ⟨9, u⟩ := by
      rw [fetchWithReconnect, loop, if_pos rfl]
      simp only [prompt]
    rw [work, work, work, e1, e2, a1, b1]
    rfl

end Verif.RemoteLate
