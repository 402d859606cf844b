import Verif.Proof.Remote
import Verif.Spec.Psk

/-! # C74: who gets service from a stripe server -/

set_option maxRecDepth 8000

namespace Verif.Psk
open Verif Verif.Metadata Verif.Remote

variable {lib : Lib} {vol : Srv} {creds : Option Creds} {c : Creds} {es : List Ev} {s s' : Proc} {e : Ev} {p : Peer}

/-! ### The library's strings -/

theorem cstr_of_no_nul {b t : Bytes} (h : (0 : UInt8) ∉ b) : cstr (b ++ 0 :: t) = b := by
  unfold cstr
  rw [List.takeWhile_append_of_pos (by intro x hx; simp only [decide_not, Bool.not_eq_eq_eq_not, Bool.not_true, decide_eq_false_iff_not]; rintro rfl; exact h hx)]
  simp

theorem cstr_no_nul (b : Bytes) : (0 : UInt8) ∉ cstr b := by
  induction b with
  | nil => simp [cstr]
  | cons x xs ih =>
    by_cases hx : x = 0
    · simp [cstr, hx]
    · have : cstr (x :: xs) = x :: cstr xs := by simp [cstr, hx]
      rw [this, List.mem_cons]
      rintro (h | h)
      · exact hx h.symm
      · exact ih h

theorem cstr_cases (b : Bytes) : b = cstr b ∨ ∃ t, b = cstr b ++ 0 :: t := by
  induction b with
  | nil => exact .inl rfl
  | cons x xs ih =>
    by_cases hx : x = 0
    · subst hx; right; exact ⟨xs, by simp [cstr]⟩
    · have : cstr (x :: xs) = x :: cstr xs := by simp [cstr, hx]
      rw [this]
      rcases ih with h | ⟨t, h⟩
      · left; rw [← h]
      · right; exact ⟨t, by rw [List.cons_append, ← h]⟩

theorem cstr_self {b : Bytes} (h : (0 : UInt8) ∉ b) : cstr b = b := by
  rcases cstr_cases b with e | ⟨t, e⟩
  · exact e.symm
  · exact absurd (by rw [e]; simp) h

/-! ### Credentials -/

/-- Credentials are made exactly of a non-empty identity and a secret of 16 bytes or more, unchanged. -/
theorem C74_credentials (identity secret : Bytes) (c : Creds) :
    Creds.new identity secret = .ok c ↔ identity ≠ [] ∧ 16 ≤ secret.length ∧ c = ⟨identity, secret⟩ := by
  unfold Creds.new
  cases identity with
  | nil => simp
  | cons x xs =>
    by_cases h : secret.length < 16
    · simp only [List.isEmpty_cons, Bool.false_eq_true, if_false, if_pos h, reduceCtorEq, false_iff]
      rintro ⟨_, h2, _⟩; omega
    · simp only [List.isEmpty_cons, Bool.false_eq_true, if_false, if_neg h, Except.ok.injEq, ne_eq, reduceCtorEq, not_false_eq_true, true_and]
      exact ⟨fun e => ⟨by omega, e.symm⟩, fun e => e.2.symm⟩

/-- A server (or client) runs without credentials only when its configuration names none, and otherwise with exactly
the configured identity and the secret of the configured name. -/
theorem C74_config (psk : Option (Bytes × Bytes)) (secrets : Bytes → Option Bytes) (r : Option Creds)
    (h : configCreds psk secrets = .ok r) :
    (psk = none ∧ r = none) ∨ (∃ identity name sec, psk = some (identity, name) ∧ secrets name = some sec ∧
      identity ≠ [] ∧ 16 ≤ sec.length ∧ r = some ⟨identity, sec⟩) := by
  unfold configCreds at h
  match psk with
  | none => simp at h; exact .inl ⟨rfl, h.symm⟩
  | some (identity, name) =>
    right
    cases hs : secrets name with
    | none => simp [hs] at h
    | some sec =>
      simp only [hs] at h
      cases hn : Creds.new identity sec with
      | error _ => rw [hn] at h; simp [Except.map] at h
      | ok c =>
        rw [hn] at h; simp only [Except.map, Except.ok.injEq] at h
        obtain ⟨h1, h2, h3⟩ := (C74_credentials _ _ _).1 hn
        exact ⟨identity, name, sec, rfl, hs, h1, h2, by rw [← h, h3]⟩

/-- The same on a command line: an identity without a secret, or the reverse, is an error, never a run without
credentials. -/
theorem C74_arguments (decode decrypt : Bytes → Option Bytes) (identity secret : Option Bytes) (r : Option Creds)
    (h : parseCreds decode decrypt identity secret = .ok r) :
    (identity = none ∧ secret = none ∧ r = none) ∨ (∃ i b enc sec, identity = some i ∧ secret = some b ∧ decode b = some enc ∧
      decrypt enc = some sec ∧ i ≠ [] ∧ 16 ≤ sec.length ∧ r = some ⟨i, sec⟩) := by
  unfold parseCreds at h
  match identity, secret with
  | none, none => simp at h; exact .inl ⟨rfl, rfl, h.symm⟩
  | none, some _ => simp at h
  | some _, none => simp at h
  | some i, some b =>
    right
    simp only at h
    cases hb : decode b with
    | none => simp [hb] at h
    | some enc =>
      simp only [hb] at h
      cases hd : decrypt enc with
      | none => simp [hd] at h
      | some sec =>
        simp only [hd] at h
        cases hn : Creds.new i sec with
        | error _ => rw [hn] at h; simp [Except.map] at h
        | ok c =>
          rw [hn] at h; simp only [Except.map, Except.ok.injEq] at h
          obtain ⟨h1, h2, h3⟩ := (C74_credentials _ _ _).1 hn
          exact ⟨i, b, enc, sec, rfl, rfl, hb, hd, h1, h2, by rw [← h, h3]⟩

/-! ### Handshakes -/

theorem memcmp_true {a b : Bytes} : memcmpEq a b = some true ↔ a = b := by
  unfold memcmpEq
  split
  · simp
  · rename_i h; simp; rintro rfl; exact h rfl

/-- A server with credentials admits only peers that show them. -/
theorem accept_shows (hc : c.identity ≠ []) (h : accept lib c p = .admitted) : Shows c p := by
  cases p with
  | noise => simp [accept] at h
  | keyed identity key =>
    unfold accept at h
    simp only at h
    split at h
    · simp at h
    · unfold Creds.serverCb at h
      cases hm : memcmpEq ((identity.map cstr).getD []) c.identity with
      | none => simp only [hm] at h; split at h <;> simp at h
      | some b =>
        cases b with
        | false => simp [hm] at h
        | true =>
          have he := memcmp_true.1 hm
          simp only [hm] at h
          by_cases hl : c.secret.length > lib.srvBuf.length
          · simp [hl] at h
          · simp only [hl, if_false] at h
            by_cases hz : c.secret.length = 0
            · simp [hz] at h
            · simp only [hz, if_false, List.take_left', ite_eq_left_iff, reduceCtorEq, imp_false, Decidable.not_not] at h
              cases identity with
              | none =>
                exact absurd (by simpa using he.symm) hc
              | some wire =>
                simp only [Option.map_some, Option.getD_some] at he
                refine ⟨wire, by rw [h], by rw [← he]; exact cstr_no_nul _, ?_⟩
                rw [← he]
                exact cstr_cases wire

/-- Two ends of this program with the same credentials, within the library's limits, connect. -/
theorem C74_admits (hc : Creds.new c.identity c.secret = .ok c) (hf : Fits lib c) :
    ∃ p, c.peer lib = some p ∧ accept lib c p = .admitted := by
  obtain ⟨h1, h2, _⟩ := (C74_credentials _ _ _).1 hc
  refine ⟨.keyed (some c.identity) c.secret, ?_, ?_⟩
  · unfold Creds.peer Creds.clientCb
    rw [if_neg (by have := hf.identity; omega), if_neg (by have := hf.key; omega)]
    simp only [List.append_assoc, List.singleton_append, cstr_of_no_nul hf.noNul, List.take_left']
  · unfold accept Creds.serverCb
    simp only [Option.getD_some, Option.map_some, cstr_self hf.noNul, memcmp_true.2 rfl]
    rw [if_neg (by have := hf.wire; omega), if_neg (by have := hf.srv; omega)]
    simp only [List.take_left', if_true]
    rw [if_neg (by omega)]

/-- A client of this program with other credentials is admitted only if the secret is the same and the identity is the
same up to a NUL. -/
theorem C74_other_client {c' : Creds} {p : Peer} (hc : c.identity ≠ []) (hp : c'.peer lib = some p) (ha : accept lib c p = .admitted) :
    c'.secret = c.secret ∧ cstr c'.identity = c.identity := by
  unfold Creds.peer at hp
  cases hb : c'.clientCb lib.idBuf lib.keyBuf with
  | none => simp [hb] at hp
  | some r =>
    obtain ⟨ib, kb, n⟩ := r
    simp only [hb, Option.some.injEq] at hp
    unfold Creds.clientCb at hb
    split at hb
    · simp at hb
    split at hb
    · simp at hb
    simp only [Option.some.injEq, Prod.mk.injEq] at hb
    obtain ⟨rfl, rfl, rfl⟩ := hb
    obtain ⟨wire, e, hn, hw⟩ := accept_shows hc ha
    rw [← hp] at e
    simp only [Peer.keyed.injEq, Option.some.injEq, List.take_left'] at e
    obtain ⟨e1, e2⟩ := e
    refine ⟨e2, ?_⟩
    have hcw : cstr wire = c.identity := by
      rcases hw with h | ⟨t, h⟩
      · rw [h, cstr_self hn]
      · rw [h, cstr_of_no_nul hn]
    have hww : cstr wire = wire := by rw [← e1]; exact cstr_self (cstr_no_nul _)
    have : cstr (c'.identity ++ [0] ++ List.drop (c'.identity.length + 1) lib.idBuf) = cstr c'.identity := by
      rcases cstr_cases c'.identity with h | ⟨t, h⟩
      · have hz : (0 : UInt8) ∉ c'.identity := by rw [h]; exact cstr_no_nul _
        rw [List.append_assoc, List.singleton_append, cstr_of_no_nul hz, cstr_self hz]
      · have hz := cstr_no_nul c'.identity
        conv => lhs; rw [h]
        simp only [List.append_assoc, List.cons_append]
        rw [cstr_of_no_nul hz]
    rw [← this, e1, ← hww, hcw]

/-! ### The process -/

theorem accept_crash (hh : Harmless lib c p) : accept lib c p ≠ .crash := by
  cases p with
  | noise => simp [accept]
  | keyed identity key =>
    unfold accept
    simp only
    split
    · simp
    · rename_i hm
      have hl : memcmpEq ((identity.map cstr).getD []) c.identity ≠ none := by
        unfold memcmpEq
        rw [if_pos]
        · simp
        · cases identity with
          | none => have : c.identity = [] := hh; simp [this]
          | some wire =>
            rcases (show lib.maxIdentity < wire.length ∨ (cstr wire).length = c.identity.length from hh) with h | h
            · exact absurd h hm
            · simpa using h
      unfold Creds.serverCb
      cases hb : memcmpEq ((identity.map cstr).getD []) c.identity with
      | none => exact absurd hb hl
      | some b =>
        cases b with
        | false => simp
        | true =>
          by_cases hk : c.secret.length > lib.srvBuf.length
          · simp [hk]
          · simp only [hk, if_false]
            split
            · simp
            · split <;> simp

theorem accept_no_crash (h : lib.panicAborts = false) : accept lib c p ≠ .crash := by
  cases p with
  | noise => simp [accept]
  | keyed identity key =>
    unfold accept
    simp only [h]
    split
    · simp
    · split
      · simp
      · simp
      · split
        · simp
        · split <;> simp

theorem turn_shorter {v : Srv} {n : Nat} {rest : List Bytes} (h : (v.handleSingle n rest).goOn = true) :
    (v.handleSingle n rest).rest.flatten.length < rest.flatten.length := by
  have key : ∀ (k : Nat) (cs cs' : List Bytes) (a : Bytes), readExact k cs = some (a, cs') → cs'.flatten.length + k = cs.flatten.length := by
    intro k cs cs' a he
    obtain ⟨h1, h2⟩ := readExact_eq cs k
    by_cases hk : k ≤ cs.flatten.length
    · obtain ⟨cs2, e1, e2⟩ := h2 hk
      rw [e1] at he
      simp only [Option.some.injEq, Prod.mk.injEq] at he
      rw [← he.2, e2, List.length_drop]; omega
    · rw [h1 (by omega)] at he; simp at he
  unfold Srv.handleSingle at h ⊢
  cases hr : readExact 1 rest with
  | none => simp [hr] at h
  | some r =>
    obtain ⟨opb, cs⟩ := r
    have k1 := key _ _ _ _ hr
    simp only [hr] at h ⊢
    split
    · simp only; omega
    · split
      · simp only; omega
      · split
        · rename_i h1 h2 h3
          rw [if_neg h1, if_neg h2, if_pos h3] at h
          cases hr8 : readExact 8 cs with
          | none => simp [hr8] at h
          | some r8 =>
            have k2 := key _ _ _ _ hr8
            simp only; omega
        · simp only; omega

theorem serveN_step {v : Srv} {f n : Nat} {rest : List Bytes} (hf : rest.flatten.length < f) :
    ∃ f', f = f' + 1 ∧ v.serveN f n rest = (v.handleSingle n rest).out ++
      (if (v.handleSingle n rest).goOn then v.serveN f' (n + 1) (v.handleSingle n rest).rest else []) := by
  cases f with
  | zero => omega
  | succ f' => exact ⟨f', rfl, rfl⟩

/-- What is true of every connection at every moment. -/
def Good (creds : Option Creds) (l : Link) : Prop :=
  match l.phase with
  | .fresh => l.sent = []
  | .serving n rest => (∀ c, creds = some c → Shows c l.peer) ∧
      ∃ f, rest.flatten.length < f ∧ l.srv.serve l.input = l.sent ++ l.srv.serveN f n rest
  | .ended => l.sent <+: l.srv.serve l.input ∧ (l.sent ≠ [] → ∀ c, creds = some c → Shows c l.peer)

theorem enter_shows (hc : ∀ c, creds = some c → c.identity ≠ []) (h : enter lib creds p = .admitted) :
    ∀ c, creds = some c → Shows c p := by
  intro c e
  subst e
  exact accept_shows (hc c rfl) h

theorem set_all {ls : List Link} {Q : Link → Prop} {i : Nat} {l : Link} (h : ∀ l ∈ ls, Q l) (hl : Q l) : ∀ m ∈ ls.set i l, Q m := by
  intro m hm
  rcases List.mem_or_eq_of_mem_set hm with h1 | h1
  · exact h m h1
  · exact h1 ▸ hl

theorem run_good (hc : ∀ c, creds = some c → c.identity ≠ []) (h : Run lib vol creds es s) :
    ∀ l ∈ s.links, Good creds l ∧ SameVolume l.srv vol ∧ .connect l.peer l.input ∈ es := by
  induction h with
  | nil => simp
  | @snoc es s e s' hr hs ih =>
    have ih : ∀ l ∈ s.links, Good creds l ∧ SameVolume l.srv vol ∧ .connect l.peer l.input ∈ es ++ [e] := fun l hl =>
      ⟨(ih l hl).1, (ih l hl).2.1, List.mem_append_left _ (ih l hl).2.2⟩
    cases hs with
    | connect p input srv hv =>
      intro l hl
      rcases List.mem_append.1 hl with hl | hl
      · exact ih l hl
      · simp only [List.mem_singleton] at hl
        subst hl
        exact ⟨rfl, hv, by simp⟩
    | acceptFails => exact ih
    | crash i l hl hp ha => exact ih
    | admitted i l hl hp ha =>
      have hm := List.mem_of_getElem? hl
      obtain ⟨g1, g2, g3⟩ := ih l hm
      simp only [Good, hp] at g1
      refine set_all ih ⟨⟨enter_shows hc ha, l.input.flatten.length + 1, by simp, ?_⟩, g2, g3⟩
      simp only [g1, List.nil_append]; rfl
    | refused i l hl hp ha =>
      have hm := List.mem_of_getElem? hl
      obtain ⟨g1, g2, g3⟩ := ih l hm
      simp only [Good, hp] at g1
      exact set_all ih ⟨⟨by simp only [g1]; exact List.nil_prefix, fun h => absurd g1 h⟩, g2, g3⟩
    | noSession i l hl hp =>
      have hm := List.mem_of_getElem? hl
      obtain ⟨g1, g2, g3⟩ := ih l hm
      simp only [Good, hp] at g1
      exact set_all ih ⟨⟨by simp only [g1]; exact List.nil_prefix, fun h => absurd g1 h⟩, g2, g3⟩
    | turn i l n rest hl hp =>
      have hm := List.mem_of_getElem? hl
      obtain ⟨g1, g2, g3⟩ := ih l hm
      simp only [Good, hp] at g1
      obtain ⟨gs, f, hf, gv⟩ := g1
      obtain ⟨f', rfl, e⟩ := serveN_step (v := l.srv) (n := n) hf
      refine set_all ih ⟨?_, g2, g3⟩
      by_cases hg : (l.srv.handleSingle n rest).goOn = true
      · simp only [Good, hg, if_true]
        have := turn_shorter hg
        refine ⟨gs, f', by omega, ?_⟩
        rw [gv, e, if_pos hg, List.append_assoc]
      · simp only [Good, hg, Bool.false_eq_true, if_false]
        refine ⟨?_, fun _ => gs⟩
        rw [gv, e, if_neg hg, List.append_nil]
        exact List.prefix_rfl
    | drop i l n rest part hl hp hq =>
      have hm := List.mem_of_getElem? hl
      obtain ⟨g1, g2, g3⟩ := ih l hm
      simp only [Good, hp] at g1
      obtain ⟨gs, f, hf, gv⟩ := g1
      obtain ⟨f', rfl, e⟩ := serveN_step (v := l.srv) (n := n) hf
      refine set_all ih ⟨⟨?_, fun _ => gs⟩, g2, g3⟩
      simp only [gv, e]
      exact (List.prefix_append_right_inj _).2 (hq.trans (List.prefix_append _ _))

/-- A server with credentials writes a byte only to peers that show them. -/
theorem C74_auth (hc : Creds.new c.identity c.secret = .ok c) (h : Run lib vol (some c) es s) (l : Link) (hl : l ∈ s.links)
    (hs : l.sent ≠ [] ∨ ∃ n rest, l.phase = .serving n rest) : Shows c l.peer := by
  have hne := ((C74_credentials _ _ _).1 hc).1
  obtain ⟨g, _, _⟩ := run_good (by intro c' e; cases e; exact hne) h l hl
  rcases hs with hs | ⟨n, rest, hp⟩
  · unfold Good at g
    split at g
    · exact absurd g hs
    · exact g.1 c rfl
    · exact g.2 hs c rfl
  · simp only [Good, hp] at g
    exact g.1 c rfl

/-- What a session writes is a first part of what the protocol (C31, C32) prescribes for its own input, whatever others
connect, send or break meanwhile. -/
theorem C74_isolated (hc : ∀ c, creds = some c → c.identity ≠ []) (h : Run lib vol creds es s) (l : Link) (hl : l ∈ s.links) :
    l.sent <+: l.srv.serve l.input ∧ SameVolume l.srv vol ∧ .connect l.peer l.input ∈ es := by
  obtain ⟨g, g2, g3⟩ := run_good hc h l hl
  refine ⟨?_, g2, g3⟩
  unfold Good at g
  split at g
  · rw [g]; exact List.nil_prefix
  · obtain ⟨_, f, _, e⟩ := g
    rw [e]; exact List.prefix_append _ _
  · exact g.1

/-- A session that is let run writes the rest: whatever state the others are in, there are steps of this session alone
after which all of its answers are written. -/
theorem C74_finishes (hc : ∀ c, creds = some c → c.identity ≠ []) (h : Run lib vol creds es s) (hu : s.up = true) (i : Nat) (l : Link)
    (hl : s.links[i]? = some l) (n : Nat) (rest : List Bytes) (hp : l.phase = .serving n rest) :
    ∃ k s' l', Run lib vol creds (es ++ List.replicate k (.turn i)) s' ∧ s'.up = true ∧ s'.links[i]? = some l' ∧
      l'.peer = l.peer ∧ l'.input = l.input ∧ l'.sent = l.srv.serve l.input := by
  have hi : i < s.links.length := by
    rcases Nat.lt_or_ge i s.links.length with h | h
    · exact h
    · rw [List.getElem?_eq_none h] at hl; cases hl
  have g := (run_good hc h l (List.mem_of_getElem? hl)).1
  simp only [Good, hp] at g
  obtain ⟨g0, f, hf, e⟩ := g
  clear g0
  induction f generalizing s l n rest es with
  | zero => omega
  | succ f ih =>
    obtain ⟨up, ls⟩ := s
    simp only at hu hl hi
    subst hu
    have hst := Step.turn (lib := lib) (vol := vol) (creds := creds) i l n rest hl hp
    have hr := h.snoc hst
    have e' : l.srv.serve l.input = l.sent ++ ((l.srv.handleSingle n rest).out ++
        (if (l.srv.handleSingle n rest).goOn then l.srv.serveN f (n + 1) (l.srv.handleSingle n rest).rest else [])) := e
    by_cases hg : (l.srv.handleSingle n rest).goOn = true
    · rw [if_pos hg] at e' hr
      have := turn_shorter hg
      obtain ⟨k, s', l', r1, r2, r3, r4, r5, r6⟩ := ih hr rfl _ (List.getElem?_set_self hi) (n + 1) _ rfl (by simpa using hi)
        (by omega) (by rw [e', List.append_assoc])
      refine ⟨k + 1, s', l', ?_, r2, r3, r4, r5, r6⟩
      rwa [List.append_assoc, List.singleton_append] at r1
    · rw [if_neg hg, List.append_nil] at e'
      exact ⟨1, _, _, hr, rfl, List.getElem?_set_self hi, rfl, rfl, e'.symm⟩

/-- A peer with the right credentials is admitted whenever its thread gets to the handshake. -/
theorem C74_entered {ls : List Link} {i : Nat} {l : Link} (hl : ls[i]? = some l) (hp : l.phase = .fresh)
    (ha : accept lib c l.peer = .admitted) {s' : Proc} (hs : Step lib vol (some c) ⟨true, ls⟩ (.handshake i) s') :
    s' = ⟨true, ls.set i { l with phase := .serving 0 l.input }⟩ := by
  cases hs with
  | admitted _ l' hl' hp' ha' => rw [hl] at hl'; cases hl'; rfl
  | refused _ l' hl' hp' ha' => rw [hl] at hl'; cases hl'; simp only [enter] at ha'; rw [ha] at ha'; cases ha'
  | crash _ l' hl' hp' ha' => rw [hl] at hl'; cases hl'; simp only [enter] at ha'; rw [ha] at ha'; cases ha'

/-- The process stays up as long as `accept` does not fail and no peer makes the identity comparison panic (or a panic
ends only its own thread): wrong identities of the right length, wrong secrets, noise and silence do not stop it. -/
theorem C74_survives_partial (h : Run lib vol creds es s) (ha : Ev.acceptFails ∉ es)
    (hh : lib.panicAborts = false ∨ ∀ c, creds = some c → ∀ p input, Ev.connect p input ∈ es → Harmless lib c p) :
    s.up = true := by
  have hne : ∀ p input, Ev.connect p input ∈ es → enter lib creds p ≠ .crash := by
    intro p input hm
    cases hcr : creds with
    | none => simp [enter]
    | some c =>
      rcases hh with hh | hh
      · exact accept_no_crash hh
      · exact accept_crash (hh c hcr p input hm)
  clear hh
  have : s.up = true ∧ ∀ l ∈ s.links, Ev.connect l.peer l.input ∈ es := by
    induction h with
    | nil => simp
    | @snoc es s e s' hr hs ih =>
      obtain ⟨iu, ic⟩ := ih (fun h => ha (List.mem_append_left _ h)) (fun p input hm => hne p input (List.mem_append_left _ hm))
      have ic : ∀ l ∈ s.links, Ev.connect l.peer l.input ∈ es ++ [e] := fun l hl => List.mem_append_left _ (ic l hl)
      cases hs with
      | connect p input srv hv =>
        refine ⟨rfl, fun l hl => ?_⟩
        rcases List.mem_append.1 hl with hl | hl
        · exact ic l hl
        · simp only [List.mem_singleton] at hl; subst hl; simp
      | acceptFails => exact absurd (by simp) ha
      | crash i l hl hp hcr =>
        exact absurd hcr (hne _ _ (ic l (List.mem_of_getElem? hl)))
      | admitted i l hl hp _ => exact ⟨rfl, set_all ic (ic l (List.mem_of_getElem? hl))⟩
      | refused i l hl hp _ => exact ⟨rfl, set_all ic (ic l (List.mem_of_getElem? hl))⟩
      | noSession i l hl hp => exact ⟨rfl, set_all ic (ic l (List.mem_of_getElem? hl))⟩
      | turn i l n rest hl hp => exact ⟨rfl, set_all ic (ic l (List.mem_of_getElem? hl))⟩
      | drop i l n rest part hl hp hq => exact ⟨rfl, set_all ic (ic l (List.mem_of_getElem? hl))⟩
  exact this.1

theorem down_stays (h : s.up = false) : ¬ Step lib vol creds s e s' := by
  intro hs
  cases hs <;> simp at h

/-- Not so for every peer: anyone who can connect, knowing neither identity nor secret, takes the server down for
everyone, by sending no identity (or one of another length). -/
theorem C74_false_crash (hc : Creds.new c.identity c.secret = .ok c) (hf : Fits lib c) (hp : lib.panicAborts = true) (input : List Bytes) :
    ∃ p es s l, c.peer lib = some p ∧ Run lib vol (some c) es s ∧ Ev.acceptFails ∉ es ∧ s.up = false ∧
      s.links[0]? = some l ∧ l.peer = p ∧ l.input = input ∧ l.sent = [] ∧ (∀ e s', ¬ Step lib vol (some c) s e s') := by
  obtain ⟨p, h1, h2⟩ := C74_admits hc hf
  have hne := ((C74_credentials _ _ _).1 hc).1
  have a1 : Run lib vol (some c) _ _ := Run.nil.snoc (.connect p input vol ⟨rfl, rfl, rfl⟩)
  have a2 : Run lib vol (some c) _ _ := a1.snoc (.admitted 0 ⟨p, input, vol, .fresh, []⟩ rfl rfl h2)
  have a3 : Run lib vol (some c) _ _ := a2.snoc (.connect (.keyed none []) [] vol ⟨rfl, rfl, rfl⟩)
  have a4 : Run lib vol (some c) _ _ := a3.snoc (.crash 1 ⟨.keyed none [], [], vol, .fresh, []⟩ rfl rfl (by
      unfold enter accept Creds.serverCb memcmpEq
      have : ¬ ([] : Bytes).length = c.identity.length := by
        intro e; exact hne (List.length_eq_zero_iff.1 e.symm)
      simp only [Option.getD_none, Option.map_none, if_neg this, hp]
      rw [if_neg (by simp)]; rfl))
  refine ⟨p, _, _, ⟨p, input, vol, .serving 0 input, []⟩, h1, a4, by simp, rfl, rfl, rfl, rfl, rfl, ?_⟩
  intro e s'
  exact down_stays rfl

/-- And one failing `accept` (no descriptors left, a connection aborted while waiting) ends it too. -/
theorem C74_false_accept : ∃ es s, Run lib vol creds es s ∧ (∀ p input, Ev.connect p input ∉ es) ∧ s.up = false ∧
    ∀ e s', ¬ Step lib vol creds s e s' :=
  ⟨_, _, Run.nil.snoc .acceptFails, by simp, rfl, fun _ _ => down_stays rfl⟩

/-- An identity with a NUL in it never works: not even its own client is admitted. -/
theorem C74_nul_identity (hc : c.identity ≠ []) (hn : (0 : UInt8) ∈ c.identity) (p : Peer) : accept lib c p ≠ .admitted := by
  intro h
  obtain ⟨_, _, h2, _⟩ := accept_shows hc h
  exact h2 hn

/-! ### A case -/

def demoLib : Lib := ⟨zeros 20, zeros 32, zeros 32, 20, true⟩
def demoCreds : Creds := ⟨[97, 98], List.replicate 16 7⟩

def demoVol : Srv := ⟨⟨[], [], [], 0, []⟩, fun _ => zeros 512, fun _ => true, none, fun _ => true⟩

theorem demo_new : Creds.new demoCreds.identity demoCreds.secret = .ok demoCreds := rfl
theorem demo_fits : Fits demoLib demoCreds := ⟨by decide, by decide, by decide, by decide, by decide⟩

example : demoCreds.peer demoLib = some (.keyed (some [97, 98]) (List.replicate 16 7)) := by decide
example : accept demoLib demoCreds (.keyed (some [97, 98, 0, 5]) (List.replicate 16 7)) = .admitted := by decide
example : accept demoLib demoCreds (.keyed (some [97, 99]) (List.replicate 16 7)) = .refused := by decide
example : accept demoLib demoCreds (.keyed (some [97, 98]) (List.replicate 16 8)) = .refused := by decide
example : accept demoLib demoCreds (.keyed (some [97]) []) = .crash := by decide
example : Harmless demoLib demoCreds (.keyed (some [97, 99]) []) := .inr rfl

/-- A client greets, a stranger with a wrong secret is refused, and the process, still up, answers the client. -/
example : ∃ es s l, Run demoLib demoVol (some demoCreds) es s ∧ es.length = 5 ∧ s.up = true ∧ s.links[0]? = some l ∧
    l.sent = [0, 1, 0, 0, 0] ∧ ∀ p input, Ev.connect p input ∈ es → Harmless demoLib demoCreds p := by
  let good : Peer := .keyed (some [97, 98]) (List.replicate 16 7)
  let bad : Peer := .keyed (some [97, 98]) (List.replicate 16 8)
  have a1 := Step.connect (lib := demoLib) (vol := demoVol) (creds := some demoCreds) (ls := []) good [[2]] demoVol ⟨rfl, rfl, rfl⟩
  have a2 := Run.nil.snoc a1
  have a3 := a2.snoc (.connect bad [] demoVol ⟨rfl, rfl, rfl⟩)
  have a4 := a3.snoc (.refused 1 _ rfl rfl (by decide))
  have a5 := a4.snoc (.admitted 0 _ rfl rfl (by decide))
  have a6 := a5.snoc (.turn 0 _ 0 [[2]] rfl rfl)
  refine ⟨_, _, _, a6, rfl, rfl, rfl, by simp [Srv.handleSingle, readExact, HELLO_CMD, Srv.handleHello]; decide, ?_⟩
  intro p input hm
  simp only [List.nil_append, List.cons_append, List.mem_cons, Ev.connect.injEq, reduceCtorEq, List.not_mem_nil, or_false, false_or] at hm
  rcases hm with ⟨rfl, _⟩ | ⟨rfl, _⟩
  · exact .inr (by decide)
  · exact .inr (by decide)

end Verif.Psk
