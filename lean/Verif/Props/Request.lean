import Verif.Proof.Request
import Verif.Props.Rpc

/-! # C102: which lines are requests, and that they are answered

The reader of requests (`Model/Request.lean`) is compared with the grammar of JSON (`Spec/Request.lean`). -/

set_option maxRecDepth 8000

namespace Verif.Request
open Verif Verif.Rpc

/-- The name of the field of a request. -/
def isCommand (kv : Text × Text) : Bool := kv.1 = "command".toList

theorem isCommand_pos (v : Text) : isCommand ("command".toList, v) = true := by simp [isCommand]

theorem isCommand_neg {k v : Text} (h : k ≠ "command".toList) : ¬ isCommand (k, v) = true := by simpa [isCommand] using h

/-- What the reader has found in the fields `l`, when it had found `cmd` before. -/
def Found (cmd : Option Text) (l : List (Text × Text)) (cmd' : Option Text) : Prop :=
  (l.filter isCommand = [] ∧ cmd' = cmd) ∨
  (cmd = none ∧ ∃ v s, l.filter isCommand = [("command".toList, v)] ∧ Quoted v s ∧ cmd' = some s)

theorem found_other {cmd cmd' : Option Text} {k v : Text} {l : List (Text × Text)} (hk : k ≠ "command".toList) (h : Found cmd l cmd') :
    Found cmd ((k, v) :: l) cmd' := by
  have : isCommand (k, v) = false := by simpa [isCommand] using hk
  unfold Found
  rw [List.filter_cons_of_neg (by simp [this])]
  exact h

theorem found_here {cmd' : Option Text} {v s : Text} {l : List (Text × Text)} (hq : Quoted v s) (h : Found (some s) l cmd') :
    Found none (("command".toList, v) :: l) cmd' := by
  rcases h with ⟨h1, rfl⟩ | ⟨h1, -⟩
  · exact .inr ⟨rfl, v, s, by rw [List.filter_cons_of_pos (isCommand_pos _), h1], hq, rfl⟩
  · simp at h1

theorem members_sound {f : Nat} : ∀ {cmd cmd' : Option Text} {t r : Text}, members f cmd t = some (cmd', r) →
    ∃ m l, t = m ++ '}' :: r ∧ Members m l ∧ Found cmd l cmd' := by
  induction f with
  | zero => intro cmd cmd' t r h; simp [members] at h
  | succ f ih =>
    intro cmd cmd' t r h
    rw [members, Option.bind_eq_some_iff] at h
    obtain ⟨⟨k, r0⟩, h0, h⟩ := h
    obtain ⟨a, q, rfl, ha, hq⟩ := strVal_sound h0
    dsimp only at h
    cases hk : skip r0 with
    | nil => rw [hk] at h; simp at h
    | cons x r1 =>
      rw [hk] at h
      dsimp only at h
      obtain ⟨b, hb, rfl⟩ := skip_eq hk
      split at h
      · rename_i hx; subst hx
        rw [Option.bind_eq_some_iff] at h
        obtain ⟨⟨c1, r2⟩, h1, h⟩ := h
        dsimp only at h
        -- the value, and how the fields behind it continue
        have hval : ∃ c v, r1 = c ++ (v ++ r2) ∧ Ws c ∧ Value v ∧ ∀ l, Found c1 l cmd' → Found cmd ((k, v) :: l) cmd' := by
          split at h1
          · rename_i hcm; subst hcm
            split at h1
            · simp at h1
            · rename_i hn
              rw [Option.map_eq_some_iff] at h1
              obtain ⟨⟨s, r3⟩, hs, h1⟩ := h1
              simp only [Prod.mk.injEq] at h1
              obtain ⟨rfl, rfl⟩ := h1
              obtain ⟨c, v, rfl, hc, hv⟩ := strVal_sound hs
              refine ⟨c, v, rfl, hc, hv.value, fun l hl => ?_⟩
              have : cmd = none := by simpa using hn
              subst this
              exact found_here hv hl
          · rename_i hcm
            rw [Option.map_eq_some_iff] at h1
            obtain ⟨r3, hs, h1⟩ := h1
            simp only [Prod.mk.injEq] at h1
            obtain ⟨rfl, rfl⟩ := h1
            obtain ⟨c, v, rfl, hc, hv⟩ := val_sound hs
            exact ⟨c, v, rfl, hc, hv, fun l hl => found_other hcm hl⟩
        obtain ⟨c, v, rfl, hc, hv, hF⟩ := hval
        cases hk2 : skip r2 with
        | nil => rw [hk2] at h; simp at h
        | cons x r3 =>
          rw [hk2] at h
          dsimp only at h
          obtain ⟨d, hd, rfl⟩ := skip_eq hk2
          split at h
          · rename_i hx; subst hx
            obtain ⟨m, l, rfl, hm, hl⟩ := ih h
            exact ⟨_, (k, v) :: l, by simp, .more ha hq hb hc hv hd hm, hF l hl⟩
          split at h
          · rename_i hx; subst hx
            simp only [Option.some.injEq, Prod.mk.injEq] at h
            obtain ⟨rfl, rfl⟩ := h
            exact ⟨_, [(k, v)], by simp, .one ha hq hb hc hv hd, hF [] (.inl ⟨rfl, rfl⟩)⟩
          · simp at h
      · simp at h

/-- One field is read. -/
theorem member_step {f : Nat} {a q k b c v Y : Text} {cmd : Option Text} (ha : Ws a) (hq : Quoted q k) (hb : Ws b) (hc : Ws c) (hv : Value v)
    (hY : Stop Y) {c1 : Option Text}
    (h : (k ≠ "command".toList ∧ c1 = cmd) ∨ (k = "command".toList ∧ cmd = none ∧ ∃ s, Quoted v s ∧ c1 = some s)) :
    members (f + 1) cmd (a ++ (q ++ (b ++ ':' :: (c ++ (v ++ Y))))) =
      match skip Y with
      | [] => none
      | x :: r => if x = ',' then members f c1 r else if x = '}' then some (c1, r) else none := by
  rw [members, strVal_complete ha hq, Option.bind_some]
  dsimp only
  rw [skip_to hb (by decide)]
  dsimp only
  rw [if_pos rfl]
  rcases h with ⟨hk, rfl⟩ | ⟨rfl, rfl, s, hs, rfl⟩
  · rw [if_neg hk, val_complete hc hv hY (by simp only [List.length_append]; omega), Option.map_some, Option.bind_some]
    rfl
  · rw [if_pos rfl, strVal_complete hc hs]
    rfl

theorem members_complete {m : Text} {l : List (Text × Text)} (h : Members m l) : ∀ {f : Nat} {cmd : Option Text} {s : Text} (r : Text), m.length < f →
    Found cmd l (some s) → members f cmd (m ++ '}' :: r) = some (some s, r) := by
  induction h with
  | @one a q k b c v d ha hq hb hc hv hd =>
    intro f cmd s r hf hF
    obtain ⟨f, rfl⟩ : ∃ g, f = g + 1 := ⟨f - 1, by omega⟩
    have e0 : a ++ (q ++ (b ++ ':' :: (c ++ (v ++ d)))) ++ '}' :: r = a ++ (q ++ (b ++ ':' :: (c ++ (v ++ (d ++ '}' :: r))))) := by simp
    rw [e0, member_step (c1 := some s) ha hq hb hc hv (stop_ws hd (by simp)), skip_to hd (by decide)]
    · rfl
    · by_cases hk : k = "command".toList
      · subst hk
        rcases hF with ⟨h1, -⟩ | ⟨rfl, v', s', h1, h2, h3⟩
        · rw [List.filter_cons_of_pos (isCommand_pos _)] at h1; exact absurd h1 (List.cons_ne_nil _ _)
        · rw [List.filter_cons_of_pos (isCommand_pos _)] at h1
          obtain ⟨-, rfl⟩ := Prod.mk.inj (List.cons.inj h1).1
          exact .inr ⟨rfl, rfl, s', h2, h3⟩
      · rcases hF with ⟨-, h1⟩ | ⟨-, v', s', h1, -⟩
        · exact .inl ⟨hk, h1⟩
        · rw [List.filter_cons_of_neg (isCommand_neg hk)] at h1; simp at h1
  | @more a q k b c v d t l ha hq hb hc hv hd ht ih =>
    intro f cmd s r hf hF
    obtain ⟨f, rfl⟩ : ∃ g, f = g + 1 := ⟨f - 1, by omega⟩
    simp only [List.length_append, List.length_cons] at hf
    have e0 : a ++ (q ++ (b ++ ':' :: (c ++ (v ++ (d ++ ',' :: t))))) ++ '}' :: r =
      a ++ (q ++ (b ++ ':' :: (c ++ (v ++ (d ++ ',' :: (t ++ '}' :: r)))))) := by simp
    by_cases hk : k = "command".toList
    · subst hk
      rcases hF with ⟨h1, -⟩ | ⟨rfl, v', s', h1, h2, h3⟩
      · rw [List.filter_cons_of_pos (isCommand_pos _)] at h1; exact absurd h1 (List.cons_ne_nil _ _)
      · rw [List.filter_cons_of_pos (isCommand_pos _)] at h1
        obtain ⟨-, rfl⟩ := Prod.mk.inj (List.cons.inj h1).1
        have h1 := (List.cons.inj h1).2
        simp only [Option.some.injEq] at h3
        subst h3
        rw [e0, member_step (c1 := some s) ha hq hb hc hv (stop_ws hd (by simp)) (.inr ⟨rfl, rfl, s, h2, rfl⟩), skip_to hd (by decide)]
        dsimp only
        rw [if_pos rfl]
        exact ih r (by omega) (.inl ⟨h1, rfl⟩)
    · rw [e0, member_step (c1 := cmd) ha hq hb hc hv (stop_ws hd (by simp)) (.inl ⟨hk, rfl⟩), skip_to hd (by decide)]
      dsimp only
      rw [if_pos rfl]
      refine ih r (by omega) ?_
      unfold Found at hF
      rw [List.filter_cons_of_neg (isCommand_neg hk)] at hF
      exact hF

theorem members_head {m : Text} {l : List (Text × Text)} (h : Members m l) (x : Text) : ∃ r, skip (m ++ x) = '"' :: r := by
  cases h with
  | one ha hq =>
    obtain ⟨i, rfl, -⟩ := hq
    exact ⟨_, by simp only [List.append_assoc, List.cons_append]; exact skip_to ha (by decide)⟩
  | more ha hq =>
    obtain ⟨i, rfl, -⟩ := hq
    exact ⟨_, by simp only [List.append_assoc, List.cons_append]; exact skip_to ha (by decide)⟩

/-- **C102** A text is accepted as a request for the command `s` exactly when it is a JSON object in which one field is named
"command" and is the string `s`, or an array of that string alone: in any spelling, with any white space, and whatever other
fields there are, of any depth, in any order. -/
theorem C102_accepted (t s : Text) : request t = some s ↔ ObjectForm t s ∨ ArrayForm t s := by
  constructor
  · intro h
    unfold request at h
    rw [Option.bind_eq_some_iff] at h
    obtain ⟨⟨s', r⟩, h, hr⟩ := h
    dsimp only at hr
    split at hr
    · rename_i hend
      simp only [Option.some.injEq] at hr
      subst hr
      obtain ⟨z, hz, hzr⟩ := skip_eq hend
      rw [List.append_nil] at hzr
      subst hzr
      unfold struct at h
      cases hk : skip t with
      | nil => rw [hk] at h; simp at h
      | cons x r0 =>
        rw [hk] at h
        dsimp only at h
        obtain ⟨a, ha, rfl⟩ := skip_eq hk
        split at h
        · rename_i hx; subst hx
          rw [Option.bind_eq_some_iff] at h
          obtain ⟨⟨s1, r1⟩, h1, h⟩ := h
          obtain ⟨b, q, rfl, hb, hq⟩ := strVal_sound h1
          dsimp only at h
          cases hk2 : skip r1 with
          | nil => rw [hk2] at h; simp at h
          | cons x r2 =>
            rw [hk2] at h
            dsimp only at h
            obtain ⟨c, hc, rfl⟩ := skip_eq hk2
            split at h
            · rename_i hx; subst hx
              simp only [Option.some.injEq, Prod.mk.injEq] at h
              obtain ⟨rfl, rfl⟩ := h
              exact .inr ⟨a, b, q, c, r2, rfl, ha, hb, hc, hz, hq⟩
            · simp at h
        split at h
        · rename_i hx; subst hx
          cases hk2 : skip r0 with
          | nil => rw [hk2] at h; simp at h
          | cons y r1 =>
            rw [hk2] at h
            dsimp only at h
            split at h
            · simp at h
            · rw [Option.bind_eq_some_iff] at h
              obtain ⟨⟨cmd, r2⟩, h1, h⟩ := h
              dsimp only at h
              rw [Option.map_eq_some_iff] at h
              obtain ⟨s2, rfl, h⟩ := h
              simp only [Prod.mk.injEq] at h
              obtain ⟨rfl, rfl⟩ := h
              obtain ⟨m, l, rfl, hm, hF⟩ := members_sound h1
              rcases hF with ⟨-, h2⟩ | ⟨-, v, s3, h2, h3, h4⟩
              · simp at h2
              · simp only [Option.some.injEq] at h4
                subst h4
                exact .inl ⟨a, m, r2, l, v, rfl, ha, hz, hm, h2, h3⟩
        · simp at h
    · simp at hr
  · rintro (⟨a, m, b, l, v, rfl, ha, hb, hm, hl, hv⟩ | ⟨a, b, q, c, d, rfl, ha, hb, hc, hd, hq⟩)
    · unfold request struct
      rw [skip_to ha (by decide)]
      dsimp only
      obtain ⟨r', hk⟩ := members_head hm ('}' :: b)
      rw [if_neg (by decide), if_pos rfl, hk]
      dsimp only
      rw [if_neg (by decide), members_complete hm b (by simp only [List.length_append]; omega) (.inr ⟨rfl, v, s, hl, hv, rfl⟩)]
      simp only [Option.bind_some, Option.map_some, skip_all hb, if_true]
    · unfold request struct
      rw [skip_to ha (by decide)]
      dsimp only
      rw [if_pos rfl, strVal_complete hb hq, Option.bind_some]
      dsimp only
      rw [skip_to hc (by decide)]
      dsimp only
      simp only [if_true, Option.bind_some, skip_all hd]

/-! ### What a client sends -/

/-- The bytes of a text (UTF-8). -/
def encode (t : Text) : Bytes := t.flatMap String.utf8EncodeChar

theorem utf8_encode (t : Text) : utf8 (encode t) = some t := by
  have : (encode t).toByteArray = t.utf8Encode := rfl
  rw [utf8, this, List.utf8Decode?_utf8Encode]
  simp

theorem byte_ne {k : Nat} (h : k % 256 ≠ 10) : (10 : UInt8) ≠ UInt8.ofNat k := by
  intro e
  have := congrArg UInt8.toNat e
  rw [UInt8.toNat_ofNat'] at this
  exact h this.symm

theorem encode_newline {c : Char} (h : (10 : UInt8) ∈ String.utf8EncodeChar c) : c = '\n' := by
  unfold String.utf8EncodeChar at h
  dsimp only at h
  split at h
  · rename_i hl
    rw [List.mem_singleton] at h
    have h2 : c.val.toNat = 10 := by
      by_cases h10 : c.val.toNat = 10
      · exact h10
      · exact absurd h (byte_ne (by omega))
    have : Char.ofNat c.toNat = Char.ofNat 10 := congrArg Char.ofNat h2
    rw [Char.ofNat_toNat] at this
    exact this
  split at h
  · simp only [List.mem_cons, List.not_mem_nil, or_false] at h
    rcases h with h | h <;> exact absurd h (byte_ne (by omega))
  split at h
  · simp only [List.mem_cons, List.not_mem_nil, or_false] at h
    rcases h with h | h | h <;> exact absurd h (byte_ne (by omega))
  · simp only [List.mem_cons, List.not_mem_nil, or_false] at h
    rcases h with h | h | h | h <;> exact absurd h (byte_ne (by omega))

theorem encode_clean {t : Text} (h : '\n' ∉ t) : (10 : UInt8) ∉ encode t := by
  intro h10
  obtain ⟨c, hc, h10⟩ := List.mem_flatMap.mp h10
  exact h (encode_newline h10 ▸ hc)

/-- A line of text, as a client sends it. -/
def line (t : Text) : Line := ⟨encode t, t⟩

/-- Every text without a newline can be sent as a line: what C55 asks of lines always holds. -/
theorem line_ok (version : Text) (words : Text → Text) {t : Text} (h : '\n' ∉ t) : (line t).ok (params version words) := by
  refine ⟨encode_clean h, ?_, utf8_encode t⟩
  have : encode t ++ [10] = encode (t ++ ['\n']) := by
    rw [encode, encode, List.flatMap_append]; rfl
  show utf8 (encode t ++ [10]) = _
  rw [this, utf8_encode]
  rfl

theorem ws_space {c : Char} (h : c = ' ' ∨ c = '\t' ∨ c = '\n' ∨ c = '\r') : isSpace c = true := by
  rcases h with rfl | rfl | rfl | rfl <;> decide

theorem trim_mid {a x b : Text} {c d : Char} {y z : Text} (ha : Ws a) (hb : Ws b) (hx : x = c :: y) (hx2 : x = z ++ [d]) (hc : isSpace c = false)
    (hd : isSpace d = false) : trim (a ++ (x ++ b)) = x := by
  unfold trim
  rw [dropWhile_blank fun c hc => ws_space (ha c hc)]
  have e1 : (x ++ b).dropWhile isSpace = x ++ b := by
    rw [hx, List.cons_append, List.dropWhile_cons_of_neg (by simp [hc])]
  rw [e1, List.reverse_append, dropWhile_blank fun c hc => ws_space (hb c (List.mem_reverse.mp hc))]
  have e2 : x.reverse.dropWhile isSpace = x.reverse := by
    rw [hx2, List.reverse_append, List.reverse_singleton, List.singleton_append, List.dropWhile_cons_of_neg (by simp [hd])]
  rw [e2, List.reverse_reverse]

theorem ws_nil : Ws [] := by simp [Ws]

theorem form_trim {t s : Text} (h : ObjectForm t s ∨ ArrayForm t s) : ObjectForm (trim t) s ∨ ArrayForm (trim t) s := by
  rcases h with ⟨a, m, b, l, v, rfl, ha, hb, hm, hl, hv⟩ | ⟨a, b, q, c, d, rfl, ha, hb, hc, hd, hq⟩
  · left
    have e : a ++ '{' :: (m ++ '}' :: b) = a ++ (('{' :: (m ++ ['}'])) ++ b) := by simp
    rw [e, trim_mid (c := '{') (d := '}') (z := '{' :: m) ha hb rfl (by simp) (by decide) (by decide)]
    exact ⟨[], m, [], l, v, rfl, ws_nil, ws_nil, hm, hl, hv⟩
  · right
    have e : a ++ '[' :: (b ++ (q ++ (c ++ ']' :: d))) = a ++ (('[' :: (b ++ (q ++ (c ++ [']'])))) ++ d) := by simp
    rw [e, trim_mid (c := '[') (d := ']') (z := '[' :: (b ++ (q ++ c))) ha hd rfl (by simp) (by decide) (by decide)]
    exact ⟨[], b, q, c, [], rfl, ws_nil, hb, hc, ws_nil, hq⟩

/-- A good answer to the command `s` (`Answers` of C55, with the command itself in the place of a text that asks for it). -/
def Reply (version : Text) (st : Snap) (s : Text) (v : Json) : Prop :=
  Answers { version := version, parse := fun t => .ok t, utf8 := fun _ => none } st s v

theorem reply_process (P : Params) (st : Snap) (s : Text) : Reply P.version st s (process P st s) :=
  answer_ok { version := P.version, parse := fun t => .ok t, utf8 := fun _ => none } st s

/-- **C102** Over the connection: a client sends any lines of text. The server sends one line for each that is not blank, in their
order. If the line is a request for a command, in any of its forms, that is the answer to this command; if it is not a request, also
without the white space around it, it is an error. -/
theorem C102_session (version : Text) (words : Text → Text) (w : Nat → Snap) (ts : List Text) (h : ∀ t ∈ ts, '\n' ∉ t) :
    let reqs := ts.filter fun t => !decide (blank t)
    let out := linesOf (session (params version words) w (fun _ => true) (ts.flatMap fun t => encode t ++ [10]))
    out.length = reqs.length ∧
    ∀ i t, reqs[i]? = some t → ∃ l v, out[i]? = some l ∧ readJson l = some v ∧
      (∀ s, ObjectForm t s ∨ ArrayForm t s → Reply version (w i) s v) ∧
      ((∀ s, ¬ (ObjectForm (trim t) s ∨ ArrayForm (trim t) s)) → isError v) := by
  intro reqs out
  have hok : ∀ l ∈ ts.map line, l.ok (params version words) := by
    intro l hl
    obtain ⟨t, ht, rfl⟩ := List.mem_map.mp hl
    exact line_ok version words (h t ht)
  have key := C55_one_answer_per_line_partial (P := params version words) (w := w) (ls := ts.map line) (last := none) hok (by simp)
  have hw : wire (ts.map line) none = ts.flatMap fun t => encode t ++ [10] := by
    simp only [wire, Option.map_none, Option.getD_none, List.append_nil, List.flatMap_map]
    rfl
  have hr : ((ts.map line ++ (none : Option Line).toList).filter fun l => !decide (blank l.text)) = reqs.map line := by
    simp only [Option.toList_none, List.append_nil, reqs, List.filter_map]
    rfl
  dsimp only at key
  rw [hw, hr, List.length_map] at key
  refine ⟨key.2.1, fun i t hi => ?_⟩
  obtain ⟨l, v, h1, h2, h3⟩ := key.2.2 i (line t) (by rw [List.getElem?_map, hi]; rfl)
  have h3 : Answers (params version words) (w i) (trim t) v := h3
  refine ⟨l, v, h1, h2, fun s hs => ?_, fun hn => ?_⟩
  · have hp : (params version words).parse (trim t) = .ok s := by
      show (match request (trim t) with | some s => Except.ok s | none => .error (words (trim t))) = _
      rw [(C102_accepted _ _).mpr (form_trim hs)]
    cases h3 with
    | malformed e h => rw [hp] at h; exact Except.noConfusion rfl rfl (heq_of_eq h)
    | unknown cmd h hc hv => rw [hp] at h; cases h; exact .unknown _ rfl hc hv
    | version h hv => rw [hp] at h; cases h; exact .version rfl hv
    | noStatus h hst hv => rw [hp] at h; cases h; exact .noStatus rfl hst hv
    | status h a b c hst hv => rw [hp] at h; cases h; exact .status rfl a b c hst hv
    | queues h qs hv hl hq => rw [hp] at h; cases h; exact .queues rfl qs hv hl hq
    | stats h qs hv hl hq => rw [hp] at h; cases h; exact .stats rfl qs hv hl hq
  · have hp : (params version words).parse (trim t) = .error (words (trim t)) := by
      show (match request (trim t) with | some s => Except.ok s | none => .error (words (trim t))) = _
      cases hr : request (trim t) with
      | none => rfl
      | some s => exact absurd ((C102_accepted _ _).mp hr) (hn s)
    cases h3 with
    | malformed e h hv => exact hv
    | unknown cmd h => rw [hp] at h; cases h
    | version h => rw [hp] at h; cases h
    | noStatus h => rw [hp] at h; cases h
    | status h => rw [hp] at h; cases h
    | queues h => rw [hp] at h; cases h
    | stats h => rw [hp] at h; cases h

/-! ### Clients -/

/-- **C102** No text asks for two commands. -/
theorem C102_one_command {t s s' : Text} (h : ObjectForm t s ∨ ArrayForm t s) (h' : ObjectForm t s' ∨ ArrayForm t s') : s = s' := by
  have e := (C102_accepted t s).mpr h
  rw [(C102_accepted t s').mpr h'] at e
  exact (Option.some.inj e).symm

theorem hexTable_hex : ∀ n ∈ List.range 16, (hex n, n) ∈ hexTable := by decide

theorem spells_esc (c : Char) : Spells (esc c) c := by
  unfold esc
  split
  · rename_i h; subst h; exact .short (by decide)
  split
  · rename_i h; subst h; exact .short (by decide)
  have of : ∀ {n}, c.toNat = n → c = Char.ofNat n := fun {n} h => by rw [← h, Char.ofNat_toNat]
  split
  · rename_i h; rw [of h]; exact .short (by decide)
  split
  · rename_i h; rw [of h]; exact .short (by decide)
  split
  · rename_i h; rw [of h]; exact .short (by decide)
  split
  · rename_i h; rw [of h]; exact .short (by decide)
  split
  · rename_i h; rw [of h]; exact .short (by decide)
  split
  · rename_i h
    refine .bmp ⟨'0', '0', _, _, 0, 0, c.toNat / 16, c.toNat % 16, rfl, by decide, by decide, hexTable_hex _ (List.mem_range.mpr (by omega)),
      hexTable_hex _ (List.mem_range.mpr (by omega)), by omega⟩
  · rename_i h1 h2 _ _ _ _ _ h3
    exact .plain ⟨h1, h2, by omega⟩

theorem quoted_serStr (s : Text) : Quoted (serStr s) s := by
  refine ⟨s.flatMap esc, rfl, ?_⟩
  induction s with
  | nil => exact .nil
  | cons c s ih => exact .cons (spells_esc c) ih

/-- **C102** Every command, whatever its characters, can be asked for: in the form a JSON library writes it in, which has no newline. -/
theorem C102_expressible (s : Text) :
    ObjectForm ("{\"command\":".toList ++ serStr s ++ ['}']) s ∧ '\n' ∉ "{\"command\":".toList ++ serStr s ++ ['}'] := by
  constructor
  · refine ⟨[], "\"command\":".toList ++ serStr s, [], [("command".toList, serStr s)], serStr s, by simp, ws_nil, ws_nil, ?_, ?_, quoted_serStr s⟩
    · have := Members.one (a := []) (b := []) (c := []) (d := []) ws_nil (quoted_serStr "command".toList) ws_nil ws_nil (quoted_serStr s).value ws_nil
      simpa [serStr, esc] using this
    · exact List.filter_cons_of_pos (p := isCommand) (isCommand_pos _)
  · intro h
    have hc : '\n' ∉ serStr s := ser_clean (.str s)
    simp [hc] at h

/-! ### Cases -/

/-- A request spelled in an unusual way: white space, an escape in the name, and another field with a number, an array, an object and a lone surrogate
in a string. -/
def odd : Text := " {\t\"id\" : [ -1.5e+3, {\"a\" : \"\\ud800\"}, [ ] ] ,\"comm\\u0061nd\":\"\\uD83D\\uDE00\" } ".toList

example : request odd = some [Char.ofNat 0x1F600] := by decide +kernel

example : ObjectForm odd [Char.ofNat 0x1F600] ∨ ArrayForm odd [Char.ofNat 0x1F600] := (C102_accepted _ _).mp (by decide +kernel)

example : request "[\"version\"]".toList = some "version".toList ∧
    -- two commands, none, not a string, something behind the object, a comma too many, a lone surrogate in a name
    request "{\"command\":\"a\",\"command\":\"a\"}".toList = none ∧ request "{}".toList = none ∧ request "{\"command\":1}".toList = none ∧
    request "{\"command\":\"a\"}x".toList = none ∧ request "{\"command\":\"a\",}".toList = none ∧
    request "{\"\\uD800\":1,\"command\":\"a\"}".toList = none := by decide +kernel

example : linesOf (session (params "0.3".toList (fun _ => "?".toList)) (fun _ => ⟨some (3, 2, 1), []⟩) (fun _ => true)
      ([odd, [], "hello".toList, "{\"command\":\"status\"}".toList].flatMap fun t => encode t ++ [10])) =
    ["{\"error\":\"unknown command: 😀\"}".toList, "{\"error\":\"invalid request: ?\"}".toList,
     "{\"status\":{\"stripes\":{\"fetched\":1,\"source\":2,\"total\":3}}}".toList] := by decide +kernel

end Verif.Request
