import Verif.Props.Remote

/-! # C33, C34: reconnecting and the remote stripe source -/

set_option maxRecDepth 8000

namespace Verif.Remote
open Verif Verif.Metadata Verif.Disk

/-! ## C33 -/

/-- What a fetch over a connection settles: data or an error that is not a transport error are final (a panic counts as
a final I/O error); a transport error is not. -/
def settles : FetchRes → Option (Except CErr Bytes)
  | .ok d => some (.ok d)
  | .err e => if e = .io then none else some (.error e)
  | .panic => some (.error .io)

/-- What dialling and fetching again settles: nothing if the dial or the transport fails; an error if the server now
reports another stripe size or stripe count. -/
def redialSettles (expected : Nat × Nat) : Except CErr Conn → Option (Except CErr Bytes)
  | .error _ => none
  | .ok c =>
    match c.md with
    | none => some (.error .geometryChanged)
    | some m => if (2 ^ m.shift.toNat, m.headers.length) = expected then settles c.next else some (.error .geometryChanged)

/-- Total back-off before the `n`-th dial: none before the first, then 0.5 s doubling up to 30 s. -/
def backoff : Nat → Nat
  | 0 => 0
  | 1 => 0
  | n + 2 => backoff (n + 1) + min (500 * 2 ^ n) 30000

theorem attemptFetch_eq (c : Conn) : attemptFetch c = settles c.next := by
  unfold attemptFetch settles
  cases c.next with
  | ok d => rfl
  | panic => rfl
  | err e => cases e <;> simp

/-- Attempts from the `a`-th dial on. -/
theorem loop_spec (dial : Nat → Except CErr Conn) (expected : Nat × Nat) (n : Nat) : ∀ (a : Nat) (c : Conn) (e : CErr) (delay slept : Nat),
    delay = min (500 * 2 ^ (a - 1)) 30000 → slept = backoff a →
    ∃ r, fetchLoop dial expected n (a + 1) c e delay a slept = r ∧ r.slept = backoff r.dials ∧
      (r.conn = c ∨ (∃ i, i < r.dials ∧ dial i = .ok r.conn) ∧ r.conn.md.map fingerprint = some expected) ∧
      ((∃ j v, a ≤ j ∧ j < a + n ∧ redialSettles expected (dial j) = some v ∧ (∀ i, a ≤ i → i < j → redialSettles expected (dial i) = none) ∧
          r.val = v ∧ r.dials = j + 1) ∨
        ((∀ i, a ≤ i → i < a + n → redialSettles expected (dial i) = none) ∧ (∃ e, r.val = .error e) ∧ r.dials = a + n)) := by
  induction n with
  | zero =>
    intro a c e delay slept hd hs
    exact ⟨_, rfl, hs, .inl rfl, .inr ⟨fun i h1 h2 => by omega, ⟨_, rfl⟩, rfl⟩⟩
  | succ n ih =>
    intro a c e delay slept hd hs
    have hslept : (if a + 1 > 1 then slept + delay else slept) = backoff (a + 1) := by
      cases a with
      | zero => simp [hs, backoff]
      | succ a => rw [if_pos (by omega), hs, hd]; simp [backoff]
    have hdelay : (if a + 1 > 1 then min (delay * 2) MAX_BACKOFF else delay) = min (500 * 2 ^ (a + 1 - 1)) 30000 := by
      cases a with
      | zero => simp [hd]
      | succ a =>
        rw [if_pos (by omega), hd]
        simp only [MAX_BACKOFF, Nat.add_sub_cancel, Nat.pow_succ]
        omega
    have next : ∀ (c' : Conn) (e' : CErr), redialSettles expected (dial a) = none →
        (c' = c ∨ dial a = .ok c' ∧ c'.md.map fingerprint = some expected) →
        ∃ r, fetchLoop dial expected n (a + 1 + 1) c' e' (if a + 1 > 1 then min (delay * 2) MAX_BACKOFF else delay) (a + 1)
            (if a + 1 > 1 then slept + delay else slept) = r ∧ r.slept = backoff r.dials ∧
          (r.conn = c ∨ (∃ i, i < r.dials ∧ dial i = .ok r.conn) ∧ r.conn.md.map fingerprint = some expected) ∧
          ((∃ j v, a ≤ j ∧ j < a + (n + 1) ∧ redialSettles expected (dial j) = some v ∧ (∀ i, a ≤ i → i < j → redialSettles expected (dial i) = none) ∧
              r.val = v ∧ r.dials = j + 1) ∨
            ((∀ i, a ≤ i → i < a + (n + 1) → redialSettles expected (dial i) = none) ∧ (∃ e, r.val = .error e) ∧ r.dials = a + (n + 1))) := by
      intro c' e' hnone hc'
      obtain ⟨r, h1, h2, h3, h4⟩ := ih (a + 1) c' e' _ _ hdelay hslept
      have hdials : a < r.dials := by
        rcases h4 with ⟨j, v, g1, g2, g3, g4, g5, g6⟩ | ⟨g1, g2, g3⟩ <;> omega
      have hprev : ∀ i, a ≤ i → ¬ a + 1 ≤ i → redialSettles expected (dial i) = none := by
        intro i h1 h2
        have : i = a := by omega
        subst this; exact hnone
      refine ⟨r, h1, h2, ?_, ?_⟩
      · rcases h3 with h3 | h3
        · rcases hc' with hc' | ⟨hc', hf⟩
          · exact .inl (h3.trans hc')
          · exact .inr ⟨⟨a, hdials, by rw [hc', h3]⟩, by rw [h3]; exact hf⟩
        · exact .inr h3
      · rcases h4 with ⟨j, v, g1, g2, g3, g4, g5, g6⟩ | ⟨g1, g2, g3⟩
        · refine .inl ⟨j, v, by omega, by omega, g3, fun i hi hj => ?_, g5, g6⟩
          by_cases hia : a + 1 ≤ i
          · exact g4 i hia hj
          · exact hprev i hi hia
        · refine .inr ⟨fun i hi hj => ?_, g2, by omega⟩
          by_cases hia : a + 1 ≤ i
          · exact g1 i hia (by omega)
          · exact hprev i hi hia
    have here : ∀ (v : Except CErr Bytes) (c' : Conn), redialSettles expected (dial a) = some v →
        (c' = c ∨ dial a = .ok c' ∧ c'.md.map fingerprint = some expected) →
        ∃ r, (⟨v, c', a + 1, if a + 1 > 1 then slept + delay else slept⟩ : Fetched) = r ∧ r.slept = backoff r.dials ∧
          (r.conn = c ∨ (∃ i, i < r.dials ∧ dial i = .ok r.conn) ∧ r.conn.md.map fingerprint = some expected) ∧
          ((∃ j v, a ≤ j ∧ j < a + (n + 1) ∧ redialSettles expected (dial j) = some v ∧ (∀ i, a ≤ i → i < j → redialSettles expected (dial i) = none) ∧
              r.val = v ∧ r.dials = j + 1) ∨
            ((∀ i, a ≤ i → i < a + (n + 1) → redialSettles expected (dial i) = none) ∧ (∃ e, r.val = .error e) ∧ r.dials = a + (n + 1))) := by
      intro v c' hv hc'
      refine ⟨_, rfl, hslept, ?_, .inl ⟨a, v, Nat.le_refl _, by omega, hv, fun i h1 h2 => by omega, rfl, rfl⟩⟩
      rcases hc' with h | ⟨h, hf⟩
      · exact .inl h
      · exact .inr ⟨⟨a, Nat.lt_succ_self _, h⟩, hf⟩
    rw [fetchLoop, if_neg (by omega)]
    simp only
    cases hdial : dial a with
    | error e' =>
      simp only
      exact next c e' (by rw [hdial]; rfl) (.inl rfl)
    | ok fresh =>
      simp only
      by_cases hf : fresh.md.map fingerprint = some expected
      · have hrs : redialSettles expected (dial a) = settles fresh.next := by
          rw [hdial]
          cases hmd : fresh.md with
          | none => rw [hmd] at hf; simp at hf
          | some m =>
            rw [hmd] at hf
            simp only [Option.map_some, Option.some.injEq, fingerprint, stripeSectorCount] at hf
            simp only [redialSettles, hmd, hf, if_true]
        rw [if_pos hf, attemptFetch_eq]
        cases hset : settles fresh.next with
        | some v => exact here v fresh (hrs.trans hset) (.inr ⟨hdial, hf⟩)
        | none => exact next fresh .io (hrs.trans hset) (.inr ⟨hdial, hf⟩)
      · rw [if_neg hf]
        refine here _ c ?_ (.inl rfl)
        rw [hdial]
        cases hmd : fresh.md with
        | none => simp [redialSettles, hmd]
        | some m =>
          rw [hmd] at hf
          simp only [Option.map_some, Option.some.injEq, fingerprint, stripeSectorCount] at hf
          simp only [redialSettles, hmd, hf, if_false]

/-- **C33** What a fetch returns, for every sequence of connection outcomes: if the current connection settles it, its
result, without dialling; otherwise the result of the first of at most ten dials that settles it; otherwise an error
after exactly ten dials. -/
theorem C33_result (c : Conn) (dial : Nat → Except CErr Conn) (expected : Nat × Nat) :
    let r := fetchWithReconnect c dial expected
    (∃ v, settles c.next = some v ∧ r.val = v ∧ r.dials = 0) ∨
    (settles c.next = none ∧ ∃ j v, j < 10 ∧ redialSettles expected (dial j) = some v ∧
      (∀ i, i < j → redialSettles expected (dial i) = none) ∧ r.val = v ∧ r.dials = j + 1) ∨
    (settles c.next = none ∧ (∀ i, i < 10 → redialSettles expected (dial i) = none) ∧ (∃ e, r.val = .error e) ∧ r.dials = 10) := by
  simp only [fetchWithReconnect, MAX_ATTEMPTS]
  rw [fetchLoop, if_pos rfl, attemptFetch_eq]
  cases hs : settles c.next with
  | some v => exact .inl ⟨v, rfl, rfl, rfl⟩
  | none =>
    obtain ⟨r, h1, -, -, h4⟩ := loop_spec dial expected 10 0 c .io INITIAL_BACKOFF 0 (by decide) rfl
    simp only
    rw [show 0 + 1 = 1 from rfl] at h1 ⊢
    rw [h1]
    rcases h4 with ⟨j, v, -, g2, g3, g4, g5, g6⟩ | ⟨g1, g2, g3⟩
    · exact .inr (.inl ⟨trivial, j, v, by omega, g3, fun i hi => g4 i (by omega) hi, g5, g6⟩)
    · exact .inr (.inr ⟨trivial, fun i hi => g1 i (by omega) (by omega), g2, by omega⟩)

/-- **C33** At most ten dials, and at most 121.5 seconds of waiting between them. -/
theorem C33_bounded (c : Conn) (dial : Nat → Except CErr Conn) (expected : Nat × Nat) :
    (fetchWithReconnect c dial expected).dials ≤ 10 ∧
    (fetchWithReconnect c dial expected).slept = backoff (fetchWithReconnect c dial expected).dials ∧
    (fetchWithReconnect c dial expected).slept ≤ 121500 := by
  have hd : (fetchWithReconnect c dial expected).dials ≤ 10 := by
    rcases C33_result c dial expected with ⟨v, -, -, h⟩ | ⟨-, j, v, h, -, -, -, h'⟩ | ⟨-, -, -, h⟩ <;> omega
  have hs : (fetchWithReconnect c dial expected).slept = backoff (fetchWithReconnect c dial expected).dials := by
    simp only [fetchWithReconnect, MAX_ATTEMPTS]
    rw [fetchLoop, if_pos rfl, attemptFetch_eq]
    cases hs : settles c.next with
    | some v => rfl
    | none =>
      obtain ⟨r, h1, h2, -, -⟩ := loop_spec dial expected 10 0 c .io INITIAL_BACKOFF 0 (by decide) rfl
      simp only
      rw [show 0 + 1 = 1 from rfl] at h1 ⊢
      rw [h1]; exact h2
  refine ⟨hd, hs, ?_⟩
  rw [hs]
  generalize (fetchWithReconnect c dial expected).dials = n at hd
  have : ∀ n, n ≤ 10 → backoff n ≤ 121500 := by decide
  exact this n hd

/-- **C33** Data come from the connection the fetch started with, or from a freshly dialled server that reported the
expected stripe size and stripe count. -/
theorem C33_geometry (c : Conn) (dial : Nat → Except CErr Conn) (expected : Nat × Nat) (d : Bytes)
    (h : (fetchWithReconnect c dial expected).val = .ok d) :
    c.next = .ok d ∨ ∃ i m, i < 10 ∧ dial i = .ok ⟨some m, .ok d⟩ ∧ 2 ^ m.shift.toNat = expected.1 ∧ m.headers.length = expected.2 := by
  have hset : ∀ f : FetchRes, settles f = some (.ok d) → f = .ok d := by
    intro f hf
    cases f with
    | ok d' => simpa [settles] using hf
    | panic => simp [settles] at hf
    | err e => simp only [settles] at hf; split at hf <;> simp at hf
  rcases C33_result c dial expected with ⟨v, h1, h2, -⟩ | ⟨-, j, v, h1, h2, -, h3, -⟩ | ⟨-, -, ⟨e, h1⟩, -⟩
  · left; rw [h] at h2; subst h2; exact hset _ h1
  · right
    rw [h] at h3; subst h3
    cases hdial : dial j with
    | error e => rw [hdial] at h2; simp [redialSettles] at h2
    | ok f =>
      rw [hdial] at h2
      obtain ⟨md, nx⟩ := f
      cases md with
      | none => simp [redialSettles] at h2
      | some m =>
        simp only [redialSettles] at h2
        split at h2
        · rename_i heq
          have := hset _ h2
          subst this
          exact ⟨j, m, h1, hdial, by rw [← heq], by rw [← heq]⟩
        · simp at h2
  · rw [h] at h1; simp at h1

/-- **C33** The connection a worker keeps for its next stripe always has the expected geometry, if its first one had. -/
theorem C33_kept_connection (c : Conn) (dial : Nat → Except CErr Conn) (expected : Nat × Nat)
    (h : c.md.map fingerprint = some expected) : (fetchWithReconnect c dial expected).conn.md.map fingerprint = some expected := by
  simp only [fetchWithReconnect, MAX_ATTEMPTS]
  rw [fetchLoop, if_pos rfl, attemptFetch_eq]
  cases hs : settles c.next with
  | some v => exact h
  | none =>
    obtain ⟨r, h1, -, h3, -⟩ := loop_spec dial expected 10 0 c .io INITIAL_BACKOFF 0 (by decide) rfl
    simp only
    rw [show 0 + 1 = 1 from rfl] at h1 ⊢
    rw [h1]
    rcases h3 with h3 | h3
    · rw [h3]; exact h
    · exact h3.2

/-- A non-transport error ends the fetch at once; an error while dialling does not. -/
theorem C33_permanent (c : Conn) (dial : Nat → Except CErr Conn) (expected : Nat × Nat) (e : CErr) (he : e ≠ .io) (h : c.next = .err e) :
    (fetchWithReconnect c dial expected).val = .error e ∧ (fetchWithReconnect c dial expected).dials = 0 := by
  rcases C33_result c dial expected with ⟨v, h1, h2, h3⟩ | ⟨h1, -⟩ | ⟨h1, -⟩
  · rw [h] at h1
    simp only [settles, if_neg he, Option.some.injEq] at h1
    exact ⟨by rw [h2, ← h1], h3⟩
  · rw [h] at h1; simp [settles, he] at h1
  · rw [h] at h1; simp [settles, he] at h1

example : (fetchWithReconnect ⟨some demoSrv.md, .err .io⟩
      (fun i => if i = 2 then .ok ⟨some demoSrv.md, .ok [1, 2]⟩ else if i = 1 then .ok ⟨some demoSrv.md, .err .io⟩ else .error .protocol) (2, 4)).val
    = .ok [1, 2] := by rfl

example : (fetchWithReconnect ⟨some demoSrv.md, .err .io⟩
      (fun _ => .ok ⟨some { demoSrv.md with shift := 3 }, .ok [1, 2]⟩) (2, 4)).val = .error .geometryChanged := by rfl

/-! ## C34 -/

/-- Number of requests for stripe `k`. -/
def reqs (k : Nat) (es : List SrcEv) : Nat := es.countP fun | .req k' _ => k' = k | _ => false
/-- Number of reports for stripe `k`. -/
def dones (k : Nat) (es : List SrcEv) : Nat := es.countP fun | .done k' _ => k' = k | _ => false

/-- The source's user never asks for a stripe again before the last request for it was reported (the stripe fetcher
does not, see `C09`; a server session waits for each stripe). -/
def Disciplined (es : List SrcEv) : Prop :=
  ∀ pre post k b, es = pre ++ SrcEv.req k b :: post → reqs k pre = dones k pre

/-- The buffer of the last request for `k`. -/
def lastBuf (k : Nat) : List SrcEv → Option Nat
  | [] => none
  | .req k' b :: es => (lastBuf k es).orElse fun _ => if k' = k then some b else none
  | _ :: es => lastBuf k es

/-- Results of `k` fetched since its last request, oldest first. -/
def results (k : Nat) (es : List SrcEv) : List (Except CErr Bytes) :=
  es.foldl (fun acc e => match e with
    | .req k' _ => if k' = k then [] else acc
    | .fetched k' r => if k' = k then acc ++ [r] else acc
    | .done _ _ => acc) []

/-- Stripes somewhere between `request` and `poll`. -/
def Src.flying (s : Src) : List Nat := s.queue ++ s.working ++ s.results.map Prod.fst

structure SInv (es : List SrcEv) (s : Src) : Prop where
  nodup : s.flying.Nodup
  pending : ∀ k, k ∈ s.flying ↔ s.pending k ≠ none
  count : ∀ k, reqs k es = dones k es + (if s.pending k = none then 0 else 1)
  buf : ∀ k b, s.pending k = some b → lastBuf k es = some b
  waiting : ∀ k, k ∈ s.queue ++ s.working → results k es = []
  fetched : ∀ k r, (k, r) ∈ s.results → results k es = [r]

theorem lastBuf_append (k : Nat) (es es' : List SrcEv) : lastBuf k (es ++ es') = (lastBuf k es').orElse fun _ => lastBuf k es := by
  induction es with
  | nil => cases h : lastBuf k es' <;> simp [lastBuf, h]
  | cons e es ih =>
    cases e with
    | req k' b =>
      simp only [List.cons_append, lastBuf, ih]
      cases lastBuf k es' <;> simp
    | fetched k' r => simp only [List.cons_append, lastBuf, ih]
    | done k' ok => simp only [List.cons_append, lastBuf, ih]

theorem results_snoc (k : Nat) (es : List SrcEv) (e : SrcEv) : results k (es ++ [e]) = match e with
    | .req k' _ => if k' = k then [] else results k es
    | .fetched k' r => if k' = k then results k es ++ [r] else results k es
    | .done _ _ => results k es := by
  simp only [results, List.foldl_append, List.foldl_cons, List.foldl_nil]

theorem reqs_snoc (k : Nat) (es : List SrcEv) (e : SrcEv) : reqs k (es ++ [e]) = reqs k es + (match e with | .req k' _ => if k' = k then 1 else 0 | _ => 0) := by
  simp only [reqs, List.countP_append, List.countP_cons, List.countP_nil]
  cases e <;> simp

theorem dones_snoc (k : Nat) (es : List SrcEv) (e : SrcEv) : dones k (es ++ [e]) = dones k es + (match e with | .done k' _ => if k' = k then 1 else 0 | _ => 0) := by
  simp only [dones, List.countP_append, List.countP_cons, List.countP_nil]
  cases e <;> simp

theorem pollOne_pending {s : Src} {k b : Nat} {r : Except CErr Bytes} (h : s.pending k = some b) :
    ∃ ok bufs, s.pollOne k r = ({ s with pending := upd s.pending k none, bufs := bufs }, some (k, ok)) ∧
      (∀ b', b' ≠ b → bufs b' = s.bufs b') ∧
      (ok = true ∧ (∃ d, r = .ok d ∧ d.length ≤ (s.bufs b).length ∧ bufs b = d ++ zeros ((s.bufs b).length - d.length)) ∨
       ok = false ∧ bufs b = s.bufs b ∧ ((∃ e, r = .error e) ∨ ∃ d, r = .ok d ∧ (s.bufs b).length < d.length)) := by
  unfold Src.pollOne
  rw [h]
  cases r with
  | error e => exact ⟨false, s.bufs, rfl, fun _ _ => rfl, .inr ⟨rfl, rfl, .inl ⟨e, rfl⟩⟩⟩
  | ok d =>
    simp only [deliver]
    by_cases hl : d.length > (s.bufs b).length
    · rw [if_pos hl]
      refine ⟨false, _, rfl, fun b' hb => upd_ne _ _ hb, .inr ⟨rfl, upd_same _ _ _, .inr ⟨d, rfl, hl⟩⟩⟩
    · rw [if_neg hl]
      refine ⟨true, _, rfl, fun b' hb => upd_ne _ _ hb, .inl ⟨rfl, d, rfl, by omega, upd_same _ _ _⟩⟩

theorem Disciplined.left {es es' : List SrcEv} (h : Disciplined (es ++ es')) : Disciplined es := by
  intro pre post k b heq
  exact h pre (post ++ es') k b (by rw [heq]; simp)

theorem src_inv {bufs : Nat → Bytes} {es : List SrcEv} {s : Src} (h : Src.Run (Src.init bufs) es s) (hd : Disciplined es) : SInv es s := by
  generalize hs0 : Src.init bufs = s0 at h
  induction h with
  | nil =>
    subst hs0
    refine ⟨by simp [Src.flying, Src.init], ?_, ?_, ?_, ?_, ?_⟩
    · intro k; simp [Src.flying, Src.init]
    · intro k; simp [reqs, dones, Src.init]
    · intro k b h; simp [Src.init] at h
    · intro k h; simp [Src.init] at h
    · intro k r h; simp [Src.init] at h
  | @snoc s' s'' es es' hr hst ih =>
    have hi := ih hd.left
    cases hst with
    | request k b =>
      have hk : reqs k es = dones k es := hd es [] k b rfl
      have hpn : s'.pending k = none := by
        have := hi.count k
        by_cases hp : s'.pending k = none
        · exact hp
        · rw [if_neg hp] at this; omega
      have hkf : k ∉ s'.flying := fun hm => (hi.pending k).1 hm hpn
      have hkq : k ∉ s'.queue := fun h => hkf (by simp [Src.flying, h])
      have hkw : k ∉ s'.working := fun h => hkf (by simp [Src.flying, h])
      have hkr : ∀ r, (k, r) ∉ s'.results := fun r h => hkf (by
        simp only [Src.flying, List.mem_append, List.mem_map]; exact .inr ⟨_, h, rfl⟩)
      have hmem : ∀ k', k' ∈ (s'.request k b).flying ↔ k' = k ∨ k' ∈ s'.flying := by
        intro k'
        simp only [Src.flying, Src.request, List.mem_append, List.mem_singleton]
        constructor
        · rintro (((h | h) | h) | h) <;> simp [h]
        · rintro (h | (h | h) | h) <;> simp [h]
      refine ⟨?_, ?_, ?_, ?_, ?_, ?_⟩
      · have : (s'.request k b).flying.Perm (k :: s'.flying) := by
          simp only [Src.flying, Src.request, List.append_assoc]
          exact List.perm_middle
        exact this.nodup_iff.2 (List.nodup_cons.2 ⟨hkf, hi.nodup⟩)
      · intro k'
        rw [hmem]
        by_cases hk' : k' = k
        · subst hk'; simp [Src.request]
        · simp only [hk', false_or, Src.request, upd_ne _ _ hk']; exact hi.pending k'
      · intro k'
        rw [reqs_snoc, dones_snoc]
        by_cases hk' : k' = k
        · subst hk'; simp [Src.request, hk]
        · simp only [Src.request, upd_ne _ _ hk', if_neg (Ne.symm hk'), Nat.add_zero]; exact hi.count k'
      · intro k' b' h
        rw [lastBuf_append]
        by_cases hk' : k' = k
        · subst hk'
          simp only [Src.request, upd_same, Option.some.injEq] at h
          simp [lastBuf, h]
        · simp only [Src.request, upd_ne _ _ hk'] at h
          simp [lastBuf, Ne.symm hk', hi.buf k' b' h]
      · intro k' h
        rw [results_snoc]
        simp only
        by_cases hk' : k' = k
        · simp [hk']
        · rw [if_neg (Ne.symm hk')]
          refine hi.waiting k' ?_
          simp only [Src.request, List.mem_append, List.mem_singleton, hk', or_false] at h ⊢
          exact h
      · intro k' r h
        rw [results_snoc]
        simp only
        have : k' ≠ k := by rintro rfl; exact hkr r h
        rw [if_neg (Ne.symm this)]
        exact hi.fetched k' r h
    | take k q hq =>
      rw [List.append_nil]
      have hp : ({ s' with queue := q, working := k :: s'.working } : Src).flying.Perm s'.flying := by
        simp only [Src.flying, hq, List.append_assoc, List.cons_append]
        exact List.perm_middle
      refine ⟨hp.nodup_iff.2 hi.nodup, fun k' => (hp.mem_iff).trans (hi.pending k'), hi.count, hi.buf, ?_, hi.fetched⟩
      intro k' h
      refine hi.waiting k' ?_
      simp only [hq, List.mem_append, List.mem_cons] at h ⊢
      rcases h with h | h | h <;> simp [h]
    | finish k r hk =>
      have hp : ({ s' with working := s'.working.erase k, results := s'.results ++ [(k, r)] } : Src).flying.Perm s'.flying := by
        simp only [Src.flying, List.map_append, List.map_cons, List.map_nil, List.append_assoc]
        refine List.Perm.append_left _ ?_
        refine (List.perm_append_comm_assoc _ _ _).trans ?_
        refine (List.Perm.append_left _ List.perm_append_comm).trans ?_
        simp only [List.cons_append, List.nil_append]
        refine (List.Perm.append_left _ (List.perm_cons_erase hk).symm).trans ?_
        exact List.perm_append_comm
      have hnd := hi.nodup
      have hnq : k ∉ s'.queue := by
        intro hq
        simp only [Src.flying, List.append_assoc] at hnd
        exact (List.nodup_append.1 hnd).2.2 k hq k (by simp [hk]) rfl
      have hnr : ∀ r', (k, r') ∉ s'.results := by
        intro r' hr'
        simp only [Src.flying] at hnd
        exact (List.nodup_append.1 hnd).2.2 k (by simp [hk]) k (List.mem_map.2 ⟨_, hr', rfl⟩) rfl
      have hwn : s'.working.Nodup := (List.nodup_append.1 (List.nodup_append.1 hnd).1).2.1
      refine ⟨hp.nodup_iff.2 hi.nodup, fun k' => (hp.mem_iff).trans (hi.pending k'), ?_, ?_, ?_, ?_⟩
      · intro k'
        rw [reqs_snoc, dones_snoc]
        exact hi.count k'
      · intro k' b h
        rw [lastBuf_append]
        simp [lastBuf, hi.buf k' b h]
      · intro k' h
        rw [results_snoc]
        simp only
        simp only [List.mem_append] at h
        have hne : k' ≠ k := by
          rintro rfl
          rcases h with h | h
          · exact hnq h
          · exact (List.Nodup.mem_erase_iff hwn).1 h |>.1 rfl
        rw [if_neg (Ne.symm hne)]
        refine hi.waiting k' ?_
        simp only [List.mem_append]
        rcases h with h | h
        · exact .inl h
        · exact .inr (List.mem_of_mem_erase h)
      · intro k' r' h
        rw [results_snoc]
        simp only
        simp only [List.mem_append, List.mem_singleton, Prod.mk.injEq] at h
        rcases h with h | ⟨rfl, rfl⟩
        · have hne : k' ≠ k := by rintro rfl; exact hnr r' h
          rw [if_neg (Ne.symm hne)]
          exact hi.fetched k' r' h
        · simp [hi.waiting k' (by simp [hk])]
    | poll k r t hres =>
      have hkf : k ∈ s'.flying := by simp [Src.flying, hres]
      have hpk := (hi.pending k).1 hkf
      obtain ⟨b, hb⟩ := Option.ne_none_iff_exists'.1 hpk
      obtain ⟨ok, bufs', he, -, -⟩ := pollOne_pending (s := { s' with results := t }) (r := r) hb
      rw [he]
      simp only [Option.toList_some, List.map_cons, List.map_nil]
      have hp : s'.flying.Perm (k :: ({ s' with results := t } : Src).flying) := by
        simp only [Src.flying, hres, List.map_cons]
        exact List.perm_middle
      have hnd := hp.nodup_iff.1 hi.nodup
      obtain ⟨hkn, hnd⟩ := List.nodup_cons.1 hnd
      refine ⟨hnd, ?_, ?_, ?_, ?_, ?_⟩
      · intro k'
        show k' ∈ ({ s' with results := t } : Src).flying ↔ _
        by_cases hk' : k' = k
        · subst hk'; simp [hkn]
        · simp only [upd_ne _ _ hk']
          have := hp.mem_iff (a := k')
          simp only [List.mem_cons, hk', false_or] at this
          exact this.symm.trans (hi.pending k')
      · intro k'
        rw [reqs_snoc, dones_snoc]
        have hc := hi.count k'
        by_cases hk' : k' = k
        · subst hk'
          rw [if_neg hpk] at hc
          simp [hc]
        · simp only [upd_ne _ _ hk', if_neg (Ne.symm hk'), Nat.add_zero]; exact hc
      · intro k' b' h
        rw [lastBuf_append]
        by_cases hk' : k' = k
        · subst hk'; simp at h
        · simp only [upd_ne _ _ hk'] at h
          simp [lastBuf, hi.buf k' b' h]
      · intro k' h
        rw [results_snoc]
        exact hi.waiting k' h
      · intro k' r' h
        rw [results_snoc]
        exact hi.fetched k' r' (by rw [hres]; exact List.mem_cons_of_mem _ h)

/-- **C34** At every moment the requests for a stripe are those reported plus the outstanding one, if any; when the
source is no longer busy every request was reported exactly once. -/
theorem C34_exactly_once {bufs : Nat → Bytes} {es : List SrcEv} {s : Src} (h : Src.Run (Src.init bufs) es s) (hd : Disciplined es) (k : Nat) :
    (reqs k es = dones k es ∨ (reqs k es = dones k es + 1 ∧ s.busy)) ∧ (¬ s.busy → reqs k es = dones k es) := by
  have hi := src_inv h hd
  have hc := hi.count k
  by_cases hp : s.pending k = none
  · rw [if_pos hp] at hc
    exact ⟨.inl hc, fun _ => hc⟩
  · rw [if_neg hp] at hc
    exact ⟨.inr ⟨hc, k, hp⟩, fun hb => absurd ⟨k, hp⟩ hb⟩

/-- **C34** A busy source is never stuck: a worker or `poll` can take a step. -/
theorem C34_not_stuck {bufs : Nat → Bytes} {es : List SrcEv} {s : Src} (h : Src.Run (Src.init bufs) es s) (hd : Disciplined es)
    (hb : s.busy) : ∃ es' s', Src.Step s es' s' ∧ reqs 0 es' = 0 ∧ ∀ k b, SrcEv.req k b ∉ es' := by
  have hi := src_inv h hd
  obtain ⟨k, hk⟩ := hb
  have hf := (hi.pending k).2 hk
  cases hq : s.queue with
  | cons k' q => exact ⟨_, _, .take s k' q hq, rfl, by simp⟩
  | nil =>
    cases hr : s.results with
    | cons p t =>
      obtain ⟨k', r⟩ := p
      refine ⟨_, _, .poll s k' r t hr, ?_, ?_⟩
      · cases (Src.pollOne { s with results := t } k' r).2 <;> rfl
      · intro k b h
        cases hx : (Src.pollOne { s with results := t } k' r).2 <;> simp [hx] at h
    | nil =>
      have : k ∈ s.working := by simpa [Src.flying, hq, hr] using hf
      exact ⟨_, _, .finish s k (.error .io) this, rfl, by simp⟩

/-- Work left: three steps for a queued stripe, two for one being fetched, one for a result. -/
def Src.work (s : Src) : Nat := 3 * s.queue.length + 2 * s.working.length + s.results.length

/-- **C34** Every step other than a new request brings the source closer to idle. -/
theorem C34_drains {s s' : Src} {es : List SrcEv} (h : Src.Step s es s') (hn : ∀ k b, SrcEv.req k b ∉ es) : s'.work < s.work := by
  cases h with
  | request k b => exact absurd (List.mem_singleton.2 rfl) (hn k b)
  | take k q hq => simp only [Src.work, hq, List.length_cons]; omega
  | finish k r hk =>
    have := List.length_pos_of_mem hk
    simp only [Src.work, List.length_append, List.length_singleton, List.length_erase_of_mem hk]; omega
  | poll k r t hr =>
    have : (Src.pollOne { s with results := t } k r).1.queue = s.queue ∧ (Src.pollOne { s with results := t } k r).1.working = s.working ∧
        (Src.pollOne { s with results := t } k r).1.results = t := by
      unfold Src.pollOne
      cases hp : s.pending k with
      | none => simp
      | some b => cases r <;> simp
    obtain ⟨h1, h2, h3⟩ := this
    simp only [Src.work, h1, h2, h3, hr, List.length_cons]; omega

/-- **C34** A report is about the last request for its stripe and the one result fetched for it since: on success the
request's buffer holds the received bytes followed by zeros; a reply longer than the buffer, or an error, is reported as
a failure and leaves the buffer alone; no other buffer changes. -/
theorem C34_delivered {bufs : Nat → Bytes} {es : List SrcEv} {s s' : Src} (h : Src.Run (Src.init bufs) es s) (hd : Disciplined es)
    {k : Nat} {ok : Bool} (hst : Src.Step s [.done k ok] s') :
    ∃ b r, lastBuf k es = some b ∧ results k es = [r] ∧ (∀ b', b' ≠ b → s'.bufs b' = s.bufs b') ∧
      match r with
      | .ok d => if d.length ≤ (s.bufs b).length then ok = true ∧ s'.bufs b = d ++ zeros ((s.bufs b).length - d.length)
                 else ok = false ∧ s'.bufs b = s.bufs b
      | .error _ => ok = false ∧ s'.bufs b = s.bufs b := by
  have hi := src_inv h hd
  generalize hes : [SrcEv.done k ok] = es' at hst
  cases hst with
  | request k b => simp at hes
  | take k q hq => simp at hes
  | finish k r hk => simp at hes
  | poll k' r t hres =>
    have hkf : k' ∈ s.flying := by simp [Src.flying, hres]
    obtain ⟨b, hb⟩ := Option.ne_none_iff_exists'.1 ((hi.pending k').1 hkf)
    obtain ⟨ok', bufs', he, h1, h2⟩ := pollOne_pending (s := { s with results := t }) (r := r) hb
    rw [he] at hes
    simp only [Option.toList_some, List.map_cons, List.map_nil, List.cons.injEq, SrcEv.done.injEq, and_true] at hes
    obtain ⟨rfl, rfl⟩ := hes
    refine ⟨b, r, hi.buf k b hb, hi.fetched k r (by rw [hres]; exact List.mem_cons_self), ?_, ?_⟩
    · rw [he]; exact h1
    · rw [he]
      rcases h2 with ⟨e1, d, e2, e3, e4⟩ | ⟨e1, e2, ⟨e, e3⟩ | ⟨d, e3, e4⟩⟩
      · subst e2
        simp only
        rw [if_pos e3]
        exact ⟨e1, e4⟩
      · subst e3; exact ⟨e1, e2⟩
      · subst e3
        simp only
        rw [if_neg (by simpa using e4)]
        exact ⟨e1, e2⟩

/-- The discipline is needed: of two overlapping requests for the same stripe, one is never reported, and its buffer
never filled, although the source ends up idle. -/
theorem C34_overlap_loses_a_request (bufs : Nat → Bytes) : ∃ es s, Src.Run (Src.init bufs) es s ∧ reqs 7 es = 2 ∧ dones 7 es = 1 ∧
    ¬ s.busy ∧ s.work = 0 ∧ s.bufs 0 = bufs 0 := by
  have r := Src.Run.nil (Src.init bufs)
  have r := r.snoc (.request _ 7 0)
  have r := r.snoc (.request _ 7 1)
  have r := r.snoc (.take _ 7 [7] (by simp [Src.init, Src.request]))
  have r := r.snoc (.take _ 7 [] rfl)
  have r := r.snoc (.finish _ 7 (.error .io) (by simp))
  have r := r.snoc (.finish _ 7 (.error .io) (by simp [Src.init, Src.request]))
  have r := r.snoc (.poll _ 7 (.error .io) [(7, .error .io)] rfl)
  simp only [Src.pollOne, Src.request, Src.init, upd_same, Option.toList_some, List.map_cons, List.map_nil, List.nil_append, List.append_nil,
    List.cons_append, List.erase_cons_head] at r
  have r := r.snoc (.poll _ 7 (.error .io) [] rfl)
  simp only [Src.pollOne, upd_same, Option.toList_none, List.map_nil, List.append_nil] at r
  refine ⟨_, _, r, rfl, rfl, ?_, rfl, rfl⟩
  rintro ⟨k, hk⟩
  by_cases h : k = 7
  · subst h; simp at hk
  · simp [upd_ne _ _ h] at hk

/-- A disciplined run with two stripes answered out of order, one of them with an oversized reply. -/
theorem demo_src (bufs : Nat → Bytes) (h0 : (bufs 0).length = 4) (h1 : (bufs 1).length = 2) :
    ∃ es s, Src.Run (Src.init bufs) es s ∧ Disciplined es ∧ dones 7 es = 1 ∧ dones 8 es = 1 ∧ s.bufs 0 = [1, 2, 0, 0] ∧ s.bufs 1 = bufs 1 := by
  have r := Src.Run.nil (Src.init bufs)
  have r := r.snoc (.request _ 7 0)
  have r := r.snoc (.request _ 8 1)
  have r := r.snoc (.take _ 7 [8] (by simp [Src.init, Src.request]))
  have r := r.snoc (.take _ 8 [] rfl)
  have r := r.snoc (.finish _ 8 (.ok [1, 2, 3]) (by simp))
  have r := r.snoc (.finish _ 7 (.ok [1, 2]) (by simp [Src.init, Src.request]))
  have r := r.snoc (.poll _ 8 (.ok [1, 2, 3]) [(7, .ok [1, 2])] rfl)
  simp [Src.pollOne, Src.request, Src.init, deliver, upd, h1] at r
  have r := r.snoc (.poll _ 7 (.ok [1, 2]) [] rfl)
  simp [Src.pollOne, deliver, upd, h0] at r
  refine ⟨_, _, r, ?_, rfl, rfl, by simp [zeros, List.replicate], by simp [upd]⟩
  intro pre post k b heq
  match pre, heq with
  | [], heq => rfl
  | [_], heq => simp at heq; obtain ⟨rfl, ⟨rfl, rfl⟩, -⟩ := heq; rfl
  | [_, _], heq => simp at heq
  | [_, _, _], heq => simp at heq
  | [_, _, _, _], heq => simp at heq
  | [_, _, _, _, _], heq => simp at heq
  | [_, _, _, _, _, _], heq => simp at heq
  | _ :: _ :: _ :: _ :: _ :: _ :: _ :: _, heq =>
    have := congrArg List.length heq
    simp at this

example : ∃ es s, Src.Run (Src.init fun _ => zeros 4) es s ∧ Disciplined es ∧ ¬ s.busy ∧ reqs 7 es = 1 := by
  have r := Src.Run.nil (Src.init fun _ => zeros 4)
  have r := r.snoc (.request _ 7 0)
  have r := r.snoc (.take _ 7 [] rfl)
  have r := r.snoc (.finish _ 7 (.error .unavailable) (by simp))
  have r := r.snoc (.poll _ 7 (.error .unavailable) [] rfl)
  simp only [Src.pollOne, Src.request, Src.init, upd_same, Option.toList_some, List.map_cons, List.map_nil, List.nil_append, List.append_nil,
    List.cons_append] at r
  refine ⟨_, _, r, ?_, ?_, rfl⟩
  · intro pre post k b heq
    match pre, heq with
    | [], heq => rfl
    | [_], heq => simp at heq
    | [_, _], heq => simp at heq
    | _ :: _ :: _ :: _, heq => have := congrArg List.length heq; simp at this
  · rintro ⟨k, hk⟩
    by_cases h : k = 7
    · subst h; simp at hk
    · simp [upd_ne _ _ h] at hk

end Verif.Remote
