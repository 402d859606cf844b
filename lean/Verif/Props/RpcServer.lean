import Verif.Model.RpcServer
import Verif.Props.Rpc

/-! # C90: the RPC server serves every client, whatever the others do

A client that is served gets exactly the answers it would get alone (`C90_alone`), other clients and the listener cannot
disturb or delay it (`C90_others`, `C90_answered`). That every client is served is false: as many idle clients as the
process has descriptors end the server for good (`C90_false_accept`), and a client for which no thread can be made is
turned away without an answer (`C90_false_spawn`). As long as the clients stay below that number the server goes on
(`C90_up_partial`). -/

set_option maxRecDepth 8000

namespace Verif.RpcServer
open Verif Rpc

/-! ### Sessions -/

/-- What the answers of a connection found in the backend, by number. -/
def Conn.world (k : Conn) (i : Nat) : Snap := k.snaps.getD i ⟨none, []⟩

/-- The answers the client would get with the server for itself: those of one session on all the client has sent. -/
def Conn.alone (P : Params) (k : Conn) : Text := session P k.world (fun _ => true) k.sent

abbrev yes : Nat → Bool := fun _ => true

theorem serve_append {P : Params} {w : Nat → Snap} {ls rs : List Bytes} (h : ∀ l ∈ ls, (P.utf8 l).isSome = true) (i : Nat) :
    serve P w yes i (ls ++ rs) = serve P w yes i ls ++ serve P w yes (i + (serve P w yes i ls).length) rs := by
  induction ls generalizing i with
  | nil => simp [serve]
  | cons l ls ih =>
    have hl := h l (by simp)
    have ih := ih (fun l hl => h l (by simp [hl]))
    rw [List.cons_append, serve, serve]
    cases hu : P.utf8 l with
    | none => rw [hu] at hl; cases hl
    | some t =>
      simp only
      by_cases hb : trim t = []
      · simp only [hb, if_true]; exact ih i
      · simp only [hb, if_false, if_true, List.cons_append, List.length_cons]
        rw [ih (i + 1)]
        rw [show i + 1 + (serve P w yes (i + 1) ls).length = i + ((serve P w yes (i + 1) ls).length + 1) by omega]

theorem serve_congr {P : Params} {w v : Nat → Snap} {ls : List Bytes} (i : Nat)
    (h : ∀ j, j < i + (serve P w yes i ls).length → w j = v j) : serve P w yes i ls = serve P v yes i ls := by
  induction ls generalizing i with
  | nil => rfl
  | cons l ls ih =>
    rw [serve] at h ⊢
    rw [serve]
    cases hu : P.utf8 l with
    | none => rfl
    | some t =>
      rw [hu] at h
      simp only at h ⊢
      by_cases hb : trim t = []
      · simp only [hb, if_true] at h ⊢; exact ih i h
      · simp only [hb, if_false, if_true, List.length_cons] at h ⊢
        rw [h i (by omega), ih (i + 1) fun j hj => h j (by omega)]

/-- A connection the server is not done with. `done` are the lines it has dealt with. -/
def Alive (P : Params) (k : Conn) (done : List Bytes) : Prop :=
  (∀ x, (k.shut = true → x = []) → rawLines (k.sent ++ x) = done ++ rawLines (k.line ++ (k.sock ++ x))) ∧ (10 : UInt8) ∉ k.line ∧
  (∀ l ∈ done, (P.utf8 l).isSome = true) ∧ k.got = (serve P k.world yes 0 done).flatten ∧
  k.snaps.length = (serve P k.world yes 0 done).length

def Good (P : Params) (k : Conn) : Prop :=
  match k.life with
  | .waiting => k.got = [] ∧ k.line = [] ∧ k.snaps = [] ∧ k.sock = k.sent
  | .served => ∃ done, Alive P k done
  | .closed .eof => k.got = k.alone P
  | .closed .notText => k.got = k.alone P
  | .closed .failed => k.got <+: k.alone P
  | .closed .dropped => k.got = []
  | .closed .reset => k.got = []

theorem alive_start {P : Params} {k : Conn} (hg : k.got = []) (hl : k.line = []) (hs : k.snaps = []) (hk : k.sock = k.sent) : Alive P k [] := by
  refine ⟨fun x _ => ?_, ?_, by simp, ?_, ?_⟩
  · simp [hl, hk]
  · simp [hl]
  · simp [hg, serve]
  · simp [hs, serve]

/-- What has been sent back is the beginning of what the client would get alone. -/
theorem alive_prefix {P : Params} {k : Conn} {done : List Bytes} (h : Alive P k done) : k.got <+: k.alone P := by
  obtain ⟨h1, _, h3, h4, _⟩ := h
  have := h1 [] (fun _ => rfl)
  rw [List.append_nil] at this
  unfold Conn.alone session
  rw [this, serve_append h3, List.flatten_append, h4]
  exact List.prefix_append _ _

theorem alive_all {P : Params} {k : Conn} {done : List Bytes} (h : Alive P k done) (hl : k.line = []) (hs : k.sock = []) : k.got = k.alone P := by
  obtain ⟨h1, _, _, h4, _⟩ := h
  have := h1 [] (fun _ => rfl)
  rw [List.append_nil, List.append_nil, hl, hs] at this
  unfold Conn.alone session
  rw [this, h4]
  simp [rawLines]

theorem world_push (k : Conn) (st : Snap) (j : Nat) (h : j < k.snaps.length) :
    k.world j = ({ k with snaps := k.snaps ++ [st] } : Conn).world j := by
  simp [Conn.world, List.getD, List.getElem?_append, h]

/-- Dealing with one line `l`, all that is read of which is put in `done`; `r` is what is left to read. -/
theorem answer_good {P : Params} {k : Conn} {done : List Bytes} {l r : Bytes} {st : Snap} {out : Send} (hk : k.life = .served)
    (h1 : ∀ x, (k.shut = true → x = []) → rawLines (k.sent ++ x) = done ++ l :: rawLines (r ++ x)) (hr : k.sock = r)
    (h3 : ∀ l ∈ done, (P.utf8 l).isSome = true) (h4 : k.got = (serve P k.world yes 0 done).flatten)
    (h5 : k.snaps.length = (serve P k.world yes 0 done).length) : Good P (k.answer P l st out) := by
  have h10 := h1 [] (fun _ => rfl)
  rw [List.append_nil, List.append_nil] at h10
  unfold Conn.answer
  cases hu : P.utf8 l with
  | none =>
    show k.got = ({ k with life := .closed .notText } : Conn).alone P
    show k.got = session P k.world (fun _ => true) k.sent
    unfold session
    rw [h10, serve_append h3, List.flatten_append, ← h4, serve, hu]
    simp
  | some t =>
    simp only
    by_cases hb : trim t = []
    · rw [if_pos hb]
      have : ({ k with line := [] } : Conn).life = .served := hk
      unfold Good
      rw [this]
      refine ⟨done ++ [l], fun x hx => ?_, by simp, ?_, ?_, ?_⟩
      · show rawLines (k.sent ++ x) = _
        rw [h1 x hx, List.append_assoc, List.nil_append, hr]; rfl
      · intro y hy
        rcases List.mem_append.mp hy with hy | hy
        · exact h3 y hy
        · rw [List.mem_singleton.mp hy, hu]; rfl
      · show k.got = (serve P k.world yes 0 (done ++ [l])).flatten
        rw [serve_append h3, List.flatten_append, ← h4, serve, hu]
        simp [hb, serve]
      · show k.snaps.length = (serve P k.world yes 0 (done ++ [l])).length
        rw [serve_append h3, List.length_append, ← h5, serve, hu]
        simp [hb, serve]
    · rw [if_neg hb]
      have hc : serve P k.world yes 0 done = serve P ({ k with snaps := k.snaps ++ [st] } : Conn).world yes 0 done :=
        serve_congr 0 fun j hj => world_push k st j (by omega)
      have hw : ({ k with snaps := k.snaps ++ [st] } : Conn).world k.snaps.length = st := by
        simp [Conn.world, List.getD]
      have hs (rs : List Bytes) : serve P ({ k with snaps := k.snaps ++ [st] } : Conn).world yes 0 (done ++ l :: rs) =
          serve P k.world yes 0 done ++ (ser (Rpc.answer P st (trim t)) ++ ['\n']) ::
            serve P ({ k with snaps := k.snaps ++ [st] } : Conn).world yes (k.snaps.length + 1) rs := by
        rw [serve_append h3, ← hc, ← h5, Nat.zero_add, serve, hu]
        simp only [hb, if_false, if_true]
        rw [hw]
      cases out with
      | ok =>
        simp only
        have : ({ k with line := [], got := k.got ++ (ser (Rpc.answer P st (trim t)) ++ ['\n']), snaps := k.snaps ++ [st] } : Conn).life =
          .served := hk
        unfold Good
        rw [this]
        refine ⟨done ++ [l], fun x hx => ?_, by simp, ?_, ?_, ?_⟩
        · show rawLines (k.sent ++ x) = _
          rw [h1 x hx, List.append_assoc, List.nil_append, hr]; rfl
        · intro y hy
          rcases List.mem_append.mp hy with hy | hy
          · exact h3 y hy
          · rw [List.mem_singleton.mp hy, hu]; rfl
        · show k.got ++ _ = (serve P ({ k with snaps := k.snaps ++ [st] } : Conn).world yes 0 (done ++ [l])).flatten
          rw [hs]
          simp [h4, serve]
        · show (k.snaps ++ [st]).length = (serve P ({ k with snaps := k.snaps ++ [st] } : Conn).world yes 0 (done ++ [l])).length
          rw [hs]
          simp [h5, serve]
      | fails part =>
        show k.got ++ _ <+: session P ({ k with snaps := k.snaps ++ [st] } : Conn).world (fun _ => true) k.sent
        unfold session
        rw [h10, hs, List.flatten_append, ← h4, List.flatten_cons]
        exact List.prefix_append_right_inj _ |>.mpr ((List.take_prefix _ _).trans (List.prefix_append _ _))

theorem rawLines_ne {b : Bytes} (h : (10 : UInt8) ∉ b) (hb : b ≠ []) : rawLines b = [b] := rawLines_last h hb

theorem read_good {P : Params} {k k' : Conn} {st : Snap} {out : Send} (hk : k.life = .served) (hg : Good P k)
    (h : k.read P st out = some k') : Good P k' := by
  have hg' := hg
  unfold Good at hg
  rw [hk] at hg
  obtain ⟨done, ha⟩ := hg
  have ha' := ha
  obtain ⟨h1, h2, h3, h4, h5⟩ := ha
  unfold Conn.read at h
  cases hs : k.sock with
  | nil =>
    rw [hs] at h
    simp only at h
    split at h
    · rename_i hsh
      split at h
      · rename_i hl
        cases h
        exact alive_all (k := k) ha' hl hs
      · rename_i hl
        cases h
        refine answer_good (r := []) hk (fun x hx => ?_) hs h3 h4 h5
        rw [h1 x hx, hx hsh, hs, List.append_nil, List.append_nil, rawLines_ne h2 hl]; rfl
    · cases h
  | cons b r =>
    rw [hs] at h
    simp only at h
    split at h
    · rename_i hb
      cases h
      refine answer_good (k := { k with sock := r }) (r := r) hk (fun x hx => ?_) rfl h3 h4 h5
      rw [h1 x hx, hs, hb, List.cons_append, rawLines_line h2]
    · rename_i hb
      cases h
      unfold Good
      rw [show ({ k with sock := r, line := k.line ++ [b] } : Conn).life = .served from hk]
      refine ⟨done, fun x hx => ?_, ?_, h3, h4, h5⟩
      · rw [h1 x hx, hs, List.append_assoc, List.singleton_append, List.cons_append]
      · rw [List.mem_append, not_or, List.mem_singleton]
        exact ⟨h2, fun e => hb e.symm⟩

theorem mem_set {α} {l : List α} {i : Nat} {a x : α} (h : x ∈ l.set i a) : x = a ∨ x ∈ l := by
  rcases List.mem_or_eq_of_mem_set h with h | h
  · exact .inr h
  · exact .inl h

theorem stop_good {P : Params} {s : Srv} (hg : ∀ k ∈ s.conns, Good P k) : ∀ k ∈ s.stop.conns, Good P k := by
  intro k hk
  obtain ⟨k0, h0, rfl⟩ := List.mem_map.mp hk
  have := hg k0 h0
  by_cases hw : k0.life = .waiting
  · simp only [hw, if_true]
    unfold Good at this
    rw [hw] at this
    exact this.1
  · simp only [hw, if_false]
    exact this

theorem next_waiting {s : Srv} {c : Nat} (h : s.next = some c) : (s.conns[c]?).map Conn.life = some .waiting := by
  obtain ⟨hlt, hp, _⟩ := List.findIdx?_eq_some_iff_getElem.mp h
  rw [List.getElem?_eq_getElem hlt]
  simpa using hp

theorem act_good {P : Params} {lim : Nat} {s s' : Srv} {a : Act} (hg : ∀ k ∈ s.conns, Good P k) (h : act P lim s a = some s') :
    ∀ k ∈ s'.conns, Good P k := by
  cases a with
  | connect =>
    simp only [act] at h
    split at h
    · cases h
      intro k hk
      rcases List.mem_append.mp hk with hk | hk
      · exact hg k hk
      · rw [List.mem_singleton.mp hk]
        exact ⟨rfl, rfl, rfl, rfl⟩
    · cases h
  | send c bs =>
    simp only [act] at h
    cases hc : s.conns[c]? with
    | none => rw [hc] at h; cases h
    | some k0 =>
      rw [hc] at h
      simp only at h
      have h0 := hg k0 (List.mem_of_getElem? hc)
      cases hsh : k0.shut with
      | true => rw [hsh] at h; simp at h
      | false =>
        rw [hsh] at h
        simp only [Bool.false_eq_true, if_false] at h
        unfold Good at h0
        cases hl : k0.life with
        | closed w => rw [hl] at h; simp at h
        | waiting =>
          rw [hl] at h h0
          cases h
          intro k hk
          rcases mem_set hk with rfl | hk
          · unfold Good
            simp only
            exact ⟨h0.1, h0.2.1, h0.2.2.1, by rw [h0.2.2.2]⟩
          · exact hg k hk
        | served =>
          rw [hl] at h h0
          cases h
          intro k hk
          rcases mem_set hk with rfl | hk
          · unfold Good
            simp only
            obtain ⟨done, h1, h2, h3, h4, h5⟩ := h0
            refine ⟨done, fun x hx => ?_, h2, h3, h4, h5⟩
            show rawLines (k0.sent ++ bs ++ x) = done ++ rawLines (k0.line ++ (k0.sock ++ bs ++ x))
            rw [List.append_assoc, h1 (bs ++ x) (by rw [hsh]; intro e; cases e), List.append_assoc]
          · exact hg k hk
  | shut c =>
    simp only [act] at h
    cases hc : s.conns[c]? with
    | none => rw [hc] at h; cases h
    | some k0 =>
      rw [hc] at h
      cases h
      have h0 := hg k0 (List.mem_of_getElem? hc)
      intro k hk
      rcases mem_set hk with rfl | hk
      · unfold Good at h0 ⊢
        simp only
        cases hl : k0.life with
        | waiting => rw [hl] at h0; exact h0
        | served =>
          rw [hl] at h0
          obtain ⟨done, h1, h2, h3, h4, h5⟩ := h0
          refine ⟨done, fun x hx => ?_, h2, h3, h4, h5⟩
          rw [hx rfl]
          exact h1 [] fun _ => rfl
        | closed w => rw [hl] at h0; cases w <;> exact h0
      · exact hg k hk
  | accept ok =>
    simp only [act] at h
    split at h
    · cases hn : s.next with
      | none => rw [hn] at h; cases h
      | some c =>
        rw [hn] at h
        cases h
        intro k hk
        obtain ⟨i, hi⟩ := List.mem_iff_getElem?.mp hk
        rw [List.getElem?_modify] at hi
        obtain ⟨k0, hk0, hi⟩ := Option.map_eq_some_iff.mp hi
        have h0 := hg k0 (List.mem_of_getElem? hk0)
        by_cases hci : c = i
        · have hw := next_waiting hn
          rw [hci, hk0] at hw
          unfold Good at h0
          rw [show k0.life = .waiting by simpa using hw] at h0
          rw [if_pos hci] at hi
          subst hi
          cases ok with
          | true => exact ⟨[], alive_start h0.1 h0.2.1 h0.2.2.1 h0.2.2.2⟩
          | false => exact h0.1
        · rw [if_neg hci] at hi
          subst hi
          exact h0
    · cases h
  | acceptErr e =>
    cases e with
    | interrupted =>
      simp only [act] at h
      split at h
      · cases h; exact hg
      · cases h
    | full =>
      simp only [act] at h
      split at h
      · cases h; exact stop_good hg
      · cases h
    | other =>
      simp only [act] at h
      split at h
      · cases h; exact stop_good hg
      · cases h
  | read c st out =>
    simp only [act] at h
    cases hc : s.conns[c]? with
    | none => rw [hc] at h; cases h
    | some k0 =>
      rw [hc] at h
      simp only at h
      have h0 := hg k0 (List.mem_of_getElem? hc)
      split at h
      · rename_i hl
        cases hr : k0.read P st out with
        | none => rw [hr] at h; cases h
        | some k1 =>
          rw [hr] at h
          cases h
          intro k hk
          rcases mem_set hk with rfl | hk
          · exact read_good hl h0 hr
          · exact hg k hk
      · cases h
  | readErr c =>
    simp only [act] at h
    cases hc : s.conns[c]? with
    | none => rw [hc] at h; cases h
    | some k0 =>
      rw [hc] at h
      simp only at h
      have h0 := hg k0 (List.mem_of_getElem? hc)
      split at h
      · rename_i hl
        cases h
        intro k hk
        rcases mem_set hk with rfl | hk
        · unfold Good at h0
          rw [hl] at h0
          obtain ⟨done, h0⟩ := h0
          exact alive_prefix h0
        · exact hg k hk
      · cases h

theorem run_append {P : Params} {lim : Nat} {s : Srv} {as bs : List Act} :
    run P lim s (as ++ bs) = (run P lim s as).bind fun s => run P lim s bs := by
  induction as generalizing s with
  | nil => rfl
  | cons a as ih =>
    rw [List.cons_append, run, run]
    cases act P lim s a with
    | none => rfl
    | some s1 => exact ih

theorem run_good {P : Params} {lim : Nat} {s s' : Srv} {as : List Act} (hg : ∀ k ∈ s.conns, Good P k) (h : run P lim s as = some s') :
    ∀ k ∈ s'.conns, Good P k := by
  induction as generalizing s with
  | nil => cases h; exact hg
  | cons a as ih =>
    rw [run] at h
    cases ha : act P lim s a with
    | none => rw [ha] at h; cases h
    | some s1 =>
      rw [ha] at h
      exact ih (act_good hg ha) h

/-! ### The theorems -/

/-- C90: whatever the clients do and in whatever order things happen, what a client has been sent is the beginning of the
answers it would get alone, it is all of them once the server has read everything or has closed the connection because
the client was done or sent something that is not text, and a client that is not served is sent nothing. -/
theorem C90_alone {P : Params} {lim : Nat} {as : List Act} {s : Srv} (h : run P lim .init as = some s) {c : Nat} {k : Conn}
    (hk : s.conns[c]? = some k) :
    k.got <+: k.alone P ∧
    (k.life = .served → k.line = [] → k.sock = [] → k.got = k.alone P) ∧
    (k.life = .closed .eof ∨ k.life = .closed .notText → k.got = k.alone P) ∧
    (k.life = .waiting ∨ k.life = .closed .dropped ∨ k.life = .closed .reset → k.got = []) := by
  have hg := run_good (by simp [Srv.init]) h k (List.mem_of_getElem? hk)
  unfold Good at hg
  cases hl : k.life with
  | waiting =>
    rw [hl] at hg
    rw [hg.1]
    simp
  | served =>
    rw [hl] at hg
    obtain ⟨done, hg⟩ := hg
    exact ⟨alive_prefix hg, fun _ => alive_all hg, by simp, by simp⟩
  | closed w =>
    rw [hl] at hg
    cases w with
    | eof => simp only at hg; simp [← hg]
    | notText => simp only at hg; simp [← hg]
    | failed => exact ⟨hg, by simp, by simp, by simp⟩
    | dropped => simp only at hg; simp [hg]
    | reset => simp only at hg; simp [hg]

/-- The connection an event is about; the listener's are about none. -/
def Act.about : Act → Option Nat
  | .send c _ | .shut c | .read c _ _ | .readErr c => some c
  | _ => none

/-- C90: an event that is not about a client that is served leaves its connection alone, and this includes the end of the
listener. -/
theorem C90_others {P : Params} {lim : Nat} {s s' : Srv} {a : Act} (h : act P lim s a = some s') {c : Nat} {k : Conn}
    (hk : s.conns[c]? = some k) (hl : k.life = .served) (ha : a.about ≠ some c) : s'.conns[c]? = some k := by
  have hlt : c < s.conns.length := by
    obtain ⟨h, _⟩ := List.getElem?_eq_some_iff.mp hk; exact h
  have hset (d : Nat) (x : Conn) (hd : d ≠ c) : (s.conns.set d x)[c]? = some k := by rw [List.getElem?_set_ne hd, hk]
  have hstop : s.stop.conns[c]? = some k := by
    simp [Srv.stop, hk, hl]
  cases a with
  | connect =>
    simp only [act] at h
    split at h
    · cases h
      show (s.conns ++ [Conn.new])[c]? = some k
      rw [List.getElem?_append_left hlt, hk]
    · cases h
  | send d bs =>
    have hd : d ≠ c := fun e => ha (by rw [e]; rfl)
    simp only [act] at h
    cases hc : s.conns[d]? with
    | none => rw [hc] at h; cases h
    | some k0 =>
      rw [hc] at h
      simp only at h
      split at h
      · cases h
      · split at h
        · cases h
        · cases h; exact hset _ _ hd
  | shut d =>
    have hd : d ≠ c := fun e => ha (by rw [e]; rfl)
    simp only [act] at h
    cases hc : s.conns[d]? with
    | none => rw [hc] at h; cases h
    | some k0 => rw [hc] at h; cases h; exact hset _ _ hd
  | accept ok =>
    simp only [act] at h
    split at h
    · cases hn : s.next with
      | none => rw [hn] at h; cases h
      | some d =>
        rw [hn] at h
        cases h
        have hd : d ≠ c := by
          intro e
          have := next_waiting hn
          rw [e, hk] at this
          simp [hl] at this
        show (s.conns.modify d _)[c]? = some k
        rw [List.getElem?_modify, hk]
        simp [hd]
    · cases h
  | acceptErr e =>
    cases e with
    | interrupted =>
      simp only [act] at h
      split at h
      · cases h; exact hk
      · cases h
    | full =>
      simp only [act] at h
      split at h
      · cases h; exact hstop
      · cases h
    | other =>
      simp only [act] at h
      split at h
      · cases h; exact hstop
      · cases h
  | read d st out =>
    have hd : d ≠ c := fun e => ha (by rw [e]; rfl)
    simp only [act] at h
    cases hc : s.conns[d]? with
    | none => rw [hc] at h; cases h
    | some k0 =>
      rw [hc] at h
      simp only at h
      split at h
      · cases hr : k0.read P st out with
        | none => rw [hr] at h; cases h
        | some k1 => rw [hr] at h; cases h; exact hset _ _ hd
      · cases h
  | readErr d =>
    have hd : d ≠ c := fun e => ha (by rw [e]; rfl)
    simp only [act] at h
    cases hc : s.conns[d]? with
    | none => rw [hc] at h; cases h
    | some k0 =>
      rw [hc] at h
      simp only at h
      split at h
      · cases h; exact hset _ _ hd
      · cases h

/-- C90, the same for any number of events. -/
theorem C90_others_run {P : Params} {lim : Nat} {s s' : Srv} {as : List Act} (h : run P lim s as = some s') {c : Nat} {k : Conn}
    (hk : s.conns[c]? = some k) (hl : k.life = .served) (ha : ∀ a ∈ as, a.about ≠ some c) : s'.conns[c]? = some k := by
  induction as generalizing s with
  | nil => cases h; exact hk
  | cons a as ih =>
    rw [run] at h
    cases h1 : act P lim s a with
    | none => rw [h1] at h; cases h
    | some s1 =>
      rw [h1] at h
      exact ih h (C90_others h1 hk hl (ha a (by simp))) fun a h => ha a (by simp [h])

/-! ### Progress -/

theorem rawLines_ends (y : Bytes) : ∀ l ∈ rawLines (y ++ [10]), (10 : UInt8) ∈ l := by
  induction y with
  | nil => intro l hl; simp [rawLines] at hl; simp [hl]
  | cons b y ih =>
    intro l hl
    rw [List.cons_append, rawLines] at hl
    split at hl
    · rcases List.mem_cons.mp hl with rfl | hl
      · simp
      · exact ih l hl
    · cases hr : rawLines (y ++ [10]) with
      | nil =>
        exfalso
        cases y with
        | nil => simp [rawLines] at hr
        | cons z y =>
          rw [List.cons_append, rawLines] at hr
          split at hr
          · cases hr
          · split at hr <;> cases hr
      | cons x xs =>
        rw [hr] at hl
        simp only at hl
        rcases List.mem_cons.mp hl with rfl | hl
        · exact List.mem_cons_of_mem _ (ih x (by rw [hr]; simp))
        · exact ih l (by rw [hr]; exact List.mem_cons_of_mem _ hl)

theorem answer_keeps (P : Params) (k : Conn) (l : Bytes) (st : Snap) :
    (k.answer P l st .ok).sent = k.sent ∧ (k.answer P l st .ok).shut = k.shut ∧ (k.answer P l st .ok).sock = k.sock ∧
    ((k.answer P l st .ok).life = .closed .notText ∨ (k.answer P l st .ok).life = k.life ∧ (k.answer P l st .ok).line = []) := by
  unfold Conn.answer
  cases P.utf8 l with
  | none => simp
  | some t =>
    simp only
    split <;> simp

/-- The handler runs until it has to wait or is done. -/
theorem drain {P : Params} {lim : Nat} (st : Snap) (n : Nat) {s : Srv} {c : Nat} {k : Conn} (hc : s.conns[c]? = some k)
    (hl : k.life = .served) (hn : 2 * k.sock.length + (if k.line = [] then 0 else 1) < n) :
    ∃ as s' k', (∀ a ∈ as, a = .read c st .ok) ∧ run P lim s as = some s' ∧ s'.conns[c]? = some k' ∧ k'.sent = k.sent ∧
      (k'.life = .closed .notText ∨ k'.life = .closed .eof ∨ (k'.life = .served ∧ k'.sock = [] ∧ k.shut = false)) := by
  induction n generalizing s k with
  | zero => omega
  | succ n ih =>
    have hlt : c < s.conns.length := by
      obtain ⟨h, _⟩ := List.getElem?_eq_some_iff.mp hc; exact h
    have go (k1 : Conn) (hr : k.read P st .ok = some k1) :
        act P lim s (.read c st .ok) = some { s with conns := s.conns.set c k1 } := by
      simp [act, hc, hl, hr]
    have hset (k1 : Conn) : ({ s with conns := s.conns.set c k1 } : Srv).conns[c]? = some k1 := by simp [hlt]
    have more (k1 : Conn) (hr : k.read P st .ok = some k1) (h1 : k1.sent = k.sent) (h2 : k1.shut = k.shut)
        (h3 : k1.life = .closed .notText ∨ k1.life = .closed .eof ∨
          (k1.life = .served ∧ 2 * k1.sock.length + (if k1.line = [] then 0 else 1) < n)) :
        ∃ as s' k', (∀ a ∈ as, a = .read c st .ok) ∧ run P lim s as = some s' ∧ s'.conns[c]? = some k' ∧ k'.sent = k.sent ∧
          (k'.life = .closed .notText ∨ k'.life = .closed .eof ∨ (k'.life = .served ∧ k'.sock = [] ∧ k.shut = false)) := by
      have stop (h3 : k1.life = .closed .notText ∨ k1.life = .closed .eof) :
          ∃ as s' k', (∀ a ∈ as, a = .read c st .ok) ∧ run P lim s as = some s' ∧ s'.conns[c]? = some k' ∧ k'.sent = k.sent ∧
            (k'.life = .closed .notText ∨ k'.life = .closed .eof ∨ (k'.life = .served ∧ k'.sock = [] ∧ k.shut = false)) :=
        ⟨[.read c st .ok], _, k1, by simp, by rw [run, go k1 hr]; rfl, hset k1, h1, h3.elim .inl (.inr ∘ .inl)⟩
      rcases h3 with h3 | h3 | ⟨h3, h4⟩
      · exact stop (.inl h3)
      · exact stop (.inr h3)
      · obtain ⟨as, s', k', ha, hrun, hk', hs, hlf⟩ := ih (hset k1) h3 h4
        refine ⟨.read c st .ok :: as, s', k', ?_, ?_, hk', hs.trans h1, by rw [h2] at hlf; exact hlf⟩
        · intro a hm
          rcases List.mem_cons.mp hm with rfl | hm
          · rfl
          · exact ha a hm
        · rw [run, go k1 hr]; exact hrun
    cases hs : k.sock with
    | nil =>
      cases hsh : k.shut with
      | false => exact ⟨[], s, k, by simp, rfl, hc, rfl, .inr (.inr ⟨hl, hs, rfl⟩)⟩
      | true =>
        rw [← hsh]
        by_cases hln : k.line = []
        · exact more { k with life := .closed .eof } (by simp [Conn.read, hs, hsh, hln]) rfl rfl (.inr (.inl rfl))
        · obtain ⟨a1, a2, a3, a4⟩ := answer_keeps P k k.line st
          refine more (k.answer P k.line st .ok) (by simp [Conn.read, hs, hsh, hln]) a1 a2 ?_
          rcases a4 with a4 | ⟨a4, a5⟩
          · exact .inl a4
          · refine .inr (.inr ⟨a4.trans hl, ?_⟩)
            rw [a5, a3, hs]
            rw [hs, if_neg hln] at hn
            simp at hn ⊢
            omega
    | cons b r =>
      rw [hs, List.length_cons] at hn
      by_cases hb : b = 10
      · obtain ⟨a1, a2, a3, a4⟩ := answer_keeps P { k with sock := r } (k.line ++ [b]) st
        refine more (({ k with sock := r } : Conn).answer P (k.line ++ [b]) st .ok) (by simp [Conn.read, hs, hb]) a1 a2 ?_
        rcases a4 with a4 | ⟨a4, a5⟩
        · exact .inl a4
        · refine .inr (.inr ⟨a4.trans hl, ?_⟩)
          rw [a5, a3]
          simp only [if_true]
          omega
      · refine more { k with sock := r, line := k.line ++ [b] } (by simp [Conn.read, hs, hb]) rfl rfl (.inr (.inr ⟨hl, ?_⟩))
        simp only
        split <;> split at hn <;> omega

/-- C90: a client that is served and has sent whole lines, or is done sending, gets all its answers by steps of its own
handler alone: no other client has to do anything. -/
theorem C90_answered {P : Params} {lim : Nat} {as : List Act} {s : Srv} (h : run P lim .init as = some s) {c : Nat} {k : Conn}
    (hk : s.conns[c]? = some k) (hl : k.life = .served) (hw : k.shut = true ∨ k.sent = [] ∨ ∃ y, k.sent = y ++ [10]) (st : Snap) :
    ∃ more s' k', (∀ a ∈ more, a = .read c st .ok) ∧ run P lim s more = some s' ∧ s'.conns[c]? = some k' ∧ k'.sent = k.sent ∧
      k'.got = k'.alone P := by
  obtain ⟨more, s', k', h1, h2, h3, h4, h5⟩ := drain (P := P) (lim := lim) st _ hk hl (Nat.lt_succ_self _)
  have hr : run P lim .init (as ++ more) = some s' := by rw [run_append, h]; exact h2
  have ha := C90_alone hr h3
  refine ⟨more, s', k', h1, h2, h3, h4, ?_⟩
  rcases h5 with h5 | h5 | ⟨h5, h6, h7⟩
  · exact ha.2.2.1 (.inr h5)
  · exact ha.2.2.1 (.inl h5)
  · refine ha.2.1 h5 ?_ h6
    have hg := run_good (by simp [Srv.init]) hr k' (List.mem_of_getElem? h3)
    unfold Good at hg
    rw [h5] at hg
    obtain ⟨done, g1, g2, _⟩ := hg
    have g1 := g1 [] fun _ => rfl
    rw [List.append_nil, List.append_nil, h6, List.append_nil, h4] at g1
    refine Classical.byContradiction fun hne => ?_
    rw [rawLines_ne g2 hne] at g1
    rcases hw with hw | hw | ⟨y, hw⟩
    · rw [hw] at h7; cases h7
    · rw [hw] at g1; simp [rawLines] at g1
    · rw [hw] at g1
      exact g2 (rawLines_ends y _ (by rw [g1]; simp))

/-! ### The listener -/

/-- C90: as long as fewer clients are connected than the process has descriptors for, and `accept` does not fail for a
reason of its own, the server goes on listening and the client that has waited longest can be served.

Missing for the full claim: with as many clients as descriptors the server ends (`C90_false_accept`), and a thread may not
be made (`C90_false_spawn`). -/
theorem C90_up_partial {P : Params} {lim : Nat} {as : List Act} {s : Srv} (h : run P lim .init as = some s)
    (hfew : ∀ pre s1, pre <+: as → run P lim .init pre = some s1 → s1.fds < lim) (herr : Act.acceptErr .other ∉ as) :
    s.listening = true ∧
    ∀ (c : Nat) (k : Conn), s.conns[c]? = some k → k.life = .waiting → (∀ (d : Nat) (k' : Conn), d < c → s.conns[d]? = some k' → k'.life ≠ .waiting) →
      ∃ s', act P lim s (.accept true) = some s' ∧ s'.conns[c]? = some { k with life := .served } ∧ s'.listening = true := by
  have hlis : s.listening = true := by
    have key : ∀ (n : Nat) (s1 : Srv), n ≤ as.length → run P lim .init (as.take n) = some s1 → s1.listening = true := by
      intro n
      induction n with
      | zero => intro s1 _ h; cases h; rfl
      | succ n ih =>
        intro s1 hn h1
        have hlt : n < as.length := hn
        rw [List.take_succ_eq_append_getElem hlt, run_append] at h1
        cases h0 : run P lim .init (as.take n) with
        | none => rw [h0] at h1; cases h1
        | some s0 =>
          rw [h0] at h1
          have hl0 := ih s0 (by omega) h0
          have hf0 := hfew _ s0 (List.take_prefix _ _) h0
          simp only [Option.bind_some, run] at h1
          cases ha : act P lim s0 as[n] with
          | none => rw [ha] at h1; cases h1
          | some s2 =>
            rw [ha] at h1
            cases h1
            have hmem : as[n] ∈ as := List.getElem_mem hlt
            revert ha
            generalize as[n] = a at hmem
            intro ha
            cases a with
            | connect => simp only [act, hl0, if_true] at ha; cases ha; rfl
            | send d bs =>
              simp only [act] at ha
              split at ha
              · split at ha
                · cases ha
                · split at ha
                  · cases ha
                  · cases ha; exact hl0
              · cases ha
            | shut d =>
              simp only [act] at ha
              split at ha
              · cases ha; exact hl0
              · cases ha
            | accept ok =>
              simp only [act] at ha
              split at ha
              · split at ha
                · cases ha; exact hl0
                · cases ha
              · cases ha
            | acceptErr e =>
              cases e with
              | interrupted => simp only [act, hl0, if_true] at ha; cases ha; exact hl0
              | full =>
                simp only [act] at ha
                split at ha
                · omega
                · cases ha
              | other => exact absurd hmem herr
            | read d st out =>
              simp only [act] at ha
              split at ha
              · split at ha
                · obtain ⟨k1, _, rfl⟩ := Option.map_eq_some_iff.mp ha
                  exact hl0
                · cases ha
              · cases ha
            | readErr d =>
              simp only [act] at ha
              split at ha
              · split at ha
                · cases ha; exact hl0
                · cases ha
              · cases ha
    exact key as.length s (Nat.le_refl _) (by rw [List.take_length]; exact h)
  refine ⟨hlis, fun c k hk hw hfirst => ?_⟩
  have hf := hfew as s (List.prefix_refl _) h
  obtain ⟨hlt, he⟩ := List.getElem?_eq_some_iff.mp hk
  have hn : s.next = some c := by
    refine List.findIdx?_eq_some_iff_getElem.mpr ⟨hlt, by simp [he, hw], fun j hj => ?_⟩
    have := hfirst j _ hj (List.getElem?_eq_getElem (by omega))
    simpa using this
  refine ⟨{ s with conns := s.conns.modify c fun k => { k with life := .served } },
    by simp only [act, hlis, hf, and_self, if_true, hn], ?_, hlis⟩
  simp only
  rw [List.getElem?_modify, hk]
  simp

/-- Only client connections, and the server accepting them without any failure of its own. -/
def Act.plain : Act → Prop
  | .connect | .accept true | .acceptErr .full => True
  | _ => False

/-- `n` clients that connect and do nothing. -/
def idle (n : Nat) : List Act := (List.replicate n [Act.connect, .accept true]).flatten

theorem idle_run {P : Params} {lim n : Nat} (h : n ≤ lim) :
    run P lim .init (idle n) = some ⟨true, List.replicate n { Conn.new with life := .served }⟩ := by
  induction n with
  | zero => rfl
  | succ n ih =>
    have hn : ({ listening := true, conns := List.replicate n { Conn.new with life := .served } ++ [.new] } : Srv).next = some n := by
      refine List.findIdx?_eq_some_iff_getElem.mpr ⟨by simp, by simp [Conn.new], fun j hj => ?_⟩
      rw [List.getElem_append_left (by simpa using hj)]
      simp
    have hf : ({ listening := true, conns := List.replicate n { Conn.new with life := .served } ++ [.new] } : Srv).fds < lim := by
      simp only [Srv.fds, List.filter_append, List.length_append]
      have := List.length_filter_le (fun k : Conn => decide (k.life = .served)) (List.replicate n { Conn.new with life := .served })
      rw [List.length_replicate] at this
      simp [Conn.new] at this ⊢
      omega
    rw [idle, List.replicate_succ', List.flatten_append, run_append, ← idle, ih (by omega)]
    simp only [Option.bind_some, List.flatten_cons, List.flatten_nil, List.append_nil, run, act, if_true, hn, hf, and_self]
    congr 2
    rw [List.replicate_succ']
    apply List.ext_getElem?
    intro i
    rw [List.getElem?_modify]
    by_cases hi : n = i
    · subst hi; simp [List.getElem?_append]
    · by_cases hi2 : i < n
      · simp [List.getElem?_append, hi, hi2]
      · rw [List.getElem?_eq_none (by simp; omega), List.getElem?_eq_none (by simp; omega)]; rfl

/-- Once the listener has given up no client is ever accepted or can even connect. -/
theorem stopped {P : Params} {lim : Nat} {s s' : Srv} {as : List Act} (h : run P lim s as = some s') (hs : s.listening = false) :
    s'.listening = false ∧ s'.conns.length = s.conns.length := by
  induction as generalizing s with
  | nil => cases h; exact ⟨hs, rfl⟩
  | cons a as ih =>
    rw [run] at h
    cases ha : act P lim s a with
    | none => rw [ha] at h; cases h
    | some s1 =>
      rw [ha] at h
      have : s1.listening = false ∧ s1.conns.length = s.conns.length := by
        cases a with
        | connect => simp [act, hs] at ha
        | send d bs =>
          simp only [act] at ha
          split at ha
          · split at ha
            · cases ha
            · split at ha
              · cases ha
              · cases ha; exact ⟨hs, by simp⟩
          · cases ha
        | shut d =>
          simp only [act] at ha
          split at ha
          · cases ha; exact ⟨hs, by simp⟩
          · cases ha
        | accept ok => simp [act, hs] at ha
        | acceptErr e => cases e <;> simp [act, hs] at ha
        | read d st out =>
          simp only [act] at ha
          split at ha
          · split at ha
            · obtain ⟨k1, _, rfl⟩ := Option.map_eq_some_iff.mp ha
              exact ⟨hs, by simp⟩
            · cases ha
          · cases ha
        | readErr d =>
          simp only [act] at ha
          split at ha
          · split at ha
            · cases ha; exact ⟨hs, by simp⟩
            · cases ha
          · cases ha
      obtain ⟨h1, h2⟩ := ih h this.1
      exact ⟨h1, h2.trans this.2⟩

/-- The full claim is false: however many descriptors the process has left, that many clients that connect and stay
idle, and one more, end the server. The one more is turned away, and whatever happens afterwards, even if the idle
clients leave, nobody can connect again. -/
theorem C90_false_accept (P : Params) (lim : Nat) : ∃ as s, (∀ a ∈ as, a.plain) ∧ run P lim .init as = some s ∧
    (s.conns[lim]?).map Conn.life = some (.closed .reset) ∧
    ∀ more s', run P lim s more = some s' → act P lim s' .connect = none := by
  refine ⟨idle lim ++ [.connect, .acceptErr .full],
    Srv.stop ⟨true, List.replicate lim { Conn.new with life := .served } ++ [.new]⟩, ?_, ?_, ?_, fun more s' h => ?_⟩
  rotate_left
  · rw [run_append, idle_run (Nat.le_refl _)]
    simp only [Option.bind_some, run, act, if_true, true_and]
    rw [if_pos (by simp [Srv.fds, List.filter_append, Conn.new])]
    rfl
  · simp [Srv.stop, List.getElem?_append, Conn.new]
  · have := (stopped h rfl).1
    simp [act, this]
  · intro a ha
    rcases List.mem_append.mp ha with ha | ha
    · obtain ⟨l, hl, ha⟩ := List.mem_flatten.mp ha
      rw [List.eq_of_mem_replicate hl] at ha
      simp at ha
      rcases ha with rfl | rfl <;> trivial
    · simp at ha
      rcases ha with rfl | rfl <;> trivial

/-- A client that asks for the version as the only one. -/
def asks : List Act := [.connect, .send 0 ("{\"command\":\"version\"}\n".toList.map fun c => UInt8.ofNat c.toNat), .shut 0]

/-- The full claim is false: if the thread for a client cannot be made it is turned away with no answer at all, although
the server goes on and alone it would have been answered. -/
theorem C90_false_spawn : ∃ P s k, run P 1 .init (asks ++ [.accept false]) = some s ∧ s.listening = true ∧ s.conns[0]? = some k ∧
    k.life = .closed .dropped ∧ k.got = [] ∧ k.alone P = "{\"version\":\"0.3\"}\n".toList := by
  refine ⟨demoParams, _, _, rfl, rfl, rfl, rfl, rfl, by decide +kernel⟩

/-- Nothing bounds the memory one client can take: whatever `n`, a client that sends no newline makes the server keep `n`
bytes. -/
theorem C90_false_memory (P : Params) (n : Nat) : ∃ as s k, run P 1 .init as = some s ∧ s.conns[0]? = some k ∧ k.life = .served ∧
    k.line.length = n := by
  have key : ∀ (m : Nat) (l : Bytes), run P 1 ⟨true, [⟨List.replicate n 65, List.replicate m 65, false, l, [], [], .served⟩]⟩
      (List.replicate m (.read 0 ⟨none, []⟩ .ok)) = some ⟨true, [⟨List.replicate n 65, [], false, l ++ List.replicate m 65, [], [], .served⟩]⟩ := by
    intro m
    induction m with
    | zero => intro l; simp [run]
    | succ m ih =>
      intro l
      rw [List.replicate_succ, List.replicate_succ, run]
      have : act P 1 ⟨true, [⟨List.replicate n 65, 65 :: List.replicate m 65, false, l, [], [], .served⟩]⟩ (.read 0 ⟨none, []⟩ .ok) =
          some ⟨true, [⟨List.replicate n 65, List.replicate m 65, false, l ++ [65], [], [], .served⟩]⟩ := by
        simp [act, Conn.read]
      rw [this]
      simp only [Option.bind_some]
      rw [ih]
      simp [List.replicate_succ]
  refine ⟨[.connect, .accept true, .send 0 (List.replicate n 65)] ++ List.replicate n (.read 0 ⟨none, []⟩ .ok),
    ⟨true, [⟨List.replicate n 65, [], false, [] ++ List.replicate n 65, [], [], .served⟩]⟩,
    ⟨List.replicate n 65, [], false, [] ++ List.replicate n 65, [], [], .served⟩, ?_, rfl, rfl, ?_⟩
  · rw [run_append]
    exact (key n [])
  · simp

/-! ### A concrete case -/

/-- Two clients: one asks for the version and is done, the other sends half a line and stays. -/
def demo : List Act :=
  [.connect, .connect, .accept true, .send 1 [123], .send 0 ("{\"command\":\"version\"}\n".toList.map fun c => UInt8.ofNat c.toNat),
   .accept true, .read 1 ⟨none, []⟩ .ok, .acceptErr .interrupted, .acceptErr .full] ++ List.replicate 22 (.read 0 ⟨none, []⟩ .ok)

example : ((run demoParams 2 .init demo).map fun s => (s.listening, s.conns.map fun k => (k.got.map Char.toNat, k.line.map UInt8.toNat, decide (k.life = .served), k.sock.length))) =
    some (false, [("{\"version\":\"0.3\"}\n".toList.map Char.toNat, [], true, 0), ([], [123], true, 0)]) := by decide +kernel

/-- The hypotheses of `C90_answered` are met by a client that has sent a line nobody has read yet. -/
example : ∃ s k, run demoParams 2 .init [.connect, .accept true, .send 0 [123, 10]] = some s ∧ s.conns[0]? = some k ∧ k.life = .served ∧
    k.sent = [123] ++ [10] ∧ k.got = [] := ⟨_, _, rfl, rfl, rfl, rfl, rfl⟩

/-- The hypotheses of `C90_up_partial` are met with one client served and one waiting. -/
example : ∃ s k, run demoParams 2 .init [.connect, .accept true, .connect] = some s ∧ s.conns[1]? = some k ∧ k.life = .waiting ∧
    ∀ pre s1, pre <+: [.connect, .accept true, .connect] → run demoParams 2 .init pre = some s1 → s1.fds < 2 := by
  refine ⟨_, _, rfl, rfl, rfl, fun pre s1 hp h => ?_⟩
  have hlen := hp.length_le
  rw [List.prefix_iff_eq_take.mp hp] at h
  generalize pre.length = n at h hlen
  match n, hlen with
  | 0, _ => cases h; decide
  | 1, _ => cases h; decide
  | 2, _ => cases h; decide
  | 3, _ => cases h; decide

end Verif.RpcServer
