import Verif.Proof.Rpc

/-! # C55: the RPC server answers each request line with one line

The full property is false: a line that is not UTF-8 text ends the session (`C55_false`). For lines of text it holds
(`C55_one_answer_per_line_partial`). -/

set_option maxRecDepth 8000

namespace Verif.Rpc
open Verif

/-! ### Lines -/

theorem rawLines_line {b r : Bytes} (h : (10 : UInt8) ∉ b) : rawLines (b ++ 10 :: r) = (b ++ [10]) :: rawLines r := by
  induction b with
  | nil => simp [rawLines]
  | cons x b ih =>
    rw [List.mem_cons, not_or] at h
    rw [List.cons_append, rawLines, if_neg (Ne.symm h.1), ih h.2]
    rfl

theorem rawLines_last {b : Bytes} (h : (10 : UInt8) ∉ b) (hb : b ≠ []) : rawLines b = [b] := by
  induction b with
  | nil => exact absurd rfl hb
  | cons x b ih =>
    rw [List.mem_cons, not_or] at h
    rw [rawLines, if_neg (Ne.symm h.1)]
    cases b with
    | nil => rfl
    | cons y b => rw [ih h.2 (by simp)]

theorem linesOf_line {a r : Text} (h : '\n' ∉ a) : linesOf (a ++ '\n' :: r) = a :: linesOf r := by
  induction a with
  | nil => simp [linesOf]
  | cons x a ih =>
    rw [List.mem_cons, not_or] at h
    rw [List.cons_append, linesOf, if_neg (Ne.symm h.1), if_pos (by simp), ih h.2]

theorem linesOf_flatten {ts : List Text} (h : ∀ t ∈ ts, '\n' ∉ t) : linesOf (ts.map (· ++ ['\n'])).flatten = ts := by
  induction ts with
  | nil => rfl
  | cons t ts ih =>
    rw [List.map_cons, List.flatten_cons, List.append_assoc, List.singleton_append, linesOf_line (h t (by simp)),
      ih fun t ht => h t (by simp [ht])]

/-! ### Trimming -/

theorem dropWhile_nil {α} {p : α → Bool} {l : List α} : l.dropWhile p = [] ↔ ∀ a ∈ l, p a = true := by
  induction l with
  | nil => simp
  | cons a l ih =>
    by_cases h : p a = true
    · simp [List.dropWhile_cons_of_pos h, ih, h]
    · simp [List.dropWhile_cons_of_neg h, h]

theorem dropWhile_blank {α} {p : α → Bool} {a b : List α} (h : ∀ x ∈ a, p x = true) : (a ++ b).dropWhile p = b.dropWhile p := by
  induction a with
  | nil => rfl
  | cons x a ih => rw [List.cons_append, List.dropWhile_cons_of_pos (h x (by simp)), ih fun x hx => h x (by simp [hx])]

theorem isSpace_white : isSpace = white := by
  funext c
  rw [Bool.eq_iff_iff]
  simp only [isSpace, white, Bool.or_eq_true, Bool.and_eq_true, decide_eq_true_eq, List.contains_iff_mem, List.mem_cons, List.not_mem_nil, or_false]
  omega

theorem trim_nil {t : Text} : trim t = [] ↔ blank t := by
  rw [blank, ← isSpace_white]
  unfold trim
  rw [List.reverse_eq_nil_iff, dropWhile_nil]
  constructor
  · intro h c hc
    by_cases hn : t.dropWhile isSpace = []
    · exact dropWhile_nil.mp hn c hc
    · exfalso
      obtain ⟨x, r, hx⟩ := List.exists_cons_of_ne_nil hn
      have h1 : isSpace x = false := by
        have := List.head?_dropWhile_not isSpace t
        rw [hx] at this; simpa using this
      have := h x (by rw [hx]; simp)
      rw [h1] at this; simp at this
  · intro h c hc
    have : t.dropWhile isSpace = [] := dropWhile_nil.mpr h
    rw [this] at hc; simp at hc

/-- `trim` removes white space at both ends and nothing else. -/
theorem trim_spec (t : Text) : ∃ a b, t = a ++ trim t ++ b ∧ blank a ∧ blank b ∧
    (∀ c, (trim t).head? = some c → white c = false) ∧ (∀ c, (trim t).getLast? = some c → white c = false) := by
  simp only [blank, ← isSpace_white]
  have e1 := (List.takeWhile_append_dropWhile (p := isSpace) (l := t)).symm
  have e2 := (List.takeWhile_append_dropWhile (p := isSpace) (l := (t.dropWhile isSpace).reverse)).symm
  have e3 : t.dropWhile isSpace = trim t ++ ((t.dropWhile isSpace).reverse.takeWhile isSpace).reverse := by
    unfold trim
    rw [← List.reverse_append, ← e2, List.reverse_reverse]
  refine ⟨t.takeWhile isSpace, ((t.dropWhile isSpace).reverse.takeWhile isSpace).reverse, ?_, ?_, ?_, ?_, ?_⟩
  · rw [List.append_assoc, ← e3]; exact e1
  · intro c hc; exact List.all_takeWhile (p := isSpace) (l := t) |> fun h => List.all_eq_true.mp h c hc
  · intro c hc
    rw [List.mem_reverse] at hc
    exact List.all_takeWhile (p := isSpace) (l := (t.dropWhile isSpace).reverse) |> fun h => List.all_eq_true.mp h c hc
  · intro c hc
    have := List.head?_dropWhile_not isSpace t
    rw [e3] at this
    cases ht : trim t with
    | nil => rw [ht] at hc; simp at hc
    | cons x r =>
      rw [ht] at hc this
      simp at hc this
      subst hc; exact this
  · intro c hc
    unfold trim at hc
    rw [List.getLast?_reverse] at hc
    have := List.head?_dropWhile_not isSpace (t.dropWhile isSpace).reverse
    rw [hc] at this
    simpa using this

theorem trim_newline (t : Text) : trim (t ++ ['\n']) = trim t := by
  unfold trim
  by_cases h : t.dropWhile isSpace = []
  · have hb := dropWhile_nil.mp h
    rw [dropWhile_blank hb, h]; rfl
  · have : (t ++ ['\n']).dropWhile isSpace = t.dropWhile isSpace ++ ['\n'] := by
      rw [List.dropWhile_append]
      simp [h]
    rw [this, List.reverse_append, List.reverse_singleton, List.singleton_append, List.dropWhile_cons_of_pos (by decide)]

/-! ### The loop -/

/-- Lines as `read_line` returns them: `text` of line `l`, possibly with the newline. -/
def Got (P : Params) (b : Bytes) (l : Line) : Prop := ∃ t, P.utf8 b = some t ∧ trim t = trim l.text

inductive AllGot (P : Params) : List Bytes → List Line → Prop where
  | nil : AllGot P [] []
  | cons {b l bs ls} : Got P b l → AllGot P bs ls → AllGot P (b :: bs) (l :: ls)

theorem serve_all {P : Params} {w : Nat → Snap} {bs : List Bytes} {ls : List Line} (h : AllGot P bs ls) (i : Nat) :
    serve P w (fun _ => true) i bs =
      ((ls.filter fun l => !decide (blank l.text)).zipIdx i).map fun p => ser (answer P (w p.2) (trim p.1.text)) ++ ['\n'] := by
  induction h generalizing i with
  | nil => rfl
  | cons hg _ ih =>
    rename_i b l bs ls _
    obtain ⟨t, h1, h2⟩ := hg
    rw [serve, h1]
    simp only [h2]
    by_cases hb : blank l.text
    · rw [if_pos (trim_nil.mpr hb), ih, List.filter_cons_of_neg (by simpa using hb)]
    · rw [if_neg (fun h => hb (trim_nil.mp h)), if_pos trivial, ih, List.filter_cons_of_pos (by simpa using hb), List.zipIdx_cons]
      rfl

theorem answer_ok (P : Params) (st : Snap) (t : Text) : Answers P st t (answer P st t) := by
  unfold answer
  cases h : P.parse t with
  | error e => exact .malformed e h ⟨_, rfl⟩
  | ok cmd =>
    simp only [process]
    split
    · rename_i hc; subst hc; exact .version h rfl
    split
    · rename_i hc; subst hc
      cases hs : st.status with
      | none => exact .noStatus h hs rfl
      | some p => obtain ⟨a, b, c⟩ := p; exact .status h a b c hs rfl
    split
    · rename_i hc; subst hc
      refine .queues h _ rfl (by simp) fun i k hk => ⟨_, by rw [List.getElem?_map, hk]; rfl, by simp, ?_⟩
      intro j kind off len hj
      rw [List.getElem?_map, hj]
      cases kind <;> rfl
    split
    · rename_i hc; subst hc
      refine .stats h _ rfl (by simp) fun i k hk => ?_
      rw [List.getElem?_map, hk]; rfl
    · rename_i h1 h2 h3 h4
      exact .unknown cmd h ⟨h1, h2, h3, h4⟩ ⟨_, rfl⟩

/-- The bytes of complete lines, and of a last line without newline. -/
def wire (ls : List Line) (last : Option Line) : Bytes :=
  ls.flatMap (fun l => l.bytes ++ [10]) ++ (last.map Line.bytes).getD []

theorem raw_got {P : Params} {ls : List Line} {last : Option Line} (h : ∀ l ∈ ls, l.ok P) (hl : ∀ l, last = some l → l.ok P ∧ l.bytes ≠ []) :
    AllGot P (rawLines (wire ls last)) (ls ++ last.toList) := by
  induction ls with
  | nil =>
    cases last with
    | none => exact .nil
    | some l =>
      obtain ⟨⟨h1, -, h3⟩, h4⟩ := hl l rfl
      show AllGot _ (rawLines ([] ++ l.bytes)) [l]
      rw [List.nil_append, rawLines_last h1 h4]
      exact .cons ⟨_, h3, rfl⟩ .nil
  | cons l ls ih =>
    obtain ⟨h1, h2, -⟩ := h l (by simp)
    show AllGot _ (rawLines (wire (l :: ls) last)) (l :: (ls ++ last.toList))
    have : wire (l :: ls) last = l.bytes ++ 10 :: wire ls last := by simp [wire]
    rw [this, rawLines_line h1]
    exact .cons ⟨_, h2, trim_newline _⟩ (ih fun l hl => h l (by simp [hl]))

/-- C55 for lines of text: whatever lines the client sends (the last one with or without a newline), the server sends
exactly one line for each line that is not blank, in the same order, and nothing else. Each of them is a JSON value
that answers the request: an error if it is malformed or unknown. So no such line ends the session.
Missing from the English property: lines that are not UTF-8 text (`C55_false`). -/
theorem C55_one_answer_per_line_partial {P : Params} {w : Nat → Snap} {ls : List Line} {last : Option Line}
    (h : ∀ l ∈ ls, l.ok P) (hl : ∀ l, last = some l → l.ok P ∧ l.bytes ≠ []) :
    let sent := session P w (fun _ => true) (wire ls last)
    let reqs := (ls ++ last.toList).filter fun l => !decide (blank l.text)
    sent = ((linesOf sent).map (· ++ ['\n'])).flatten ∧ (linesOf sent).length = reqs.length ∧
    ∀ i l, reqs[i]? = some l → ∃ line v, (linesOf sent)[i]? = some line ∧ readJson line = some v ∧ Answers P (w i) (trim l.text) v := by
  intro sent reqs
  have e : sent = ((reqs.zipIdx.map fun p => ser (answer P (w p.2) (trim p.1.text))).map (· ++ ['\n'])).flatten := by
    show (serve P w (fun _ => true) 0 _).flatten = _
    rw [serve_all (raw_got h hl) 0, List.map_map]
    rfl
  have el : linesOf sent = reqs.zipIdx.map fun p => ser (answer P (w p.2) (trim p.1.text)) := by
    rw [e]
    apply linesOf_flatten
    intro t ht
    obtain ⟨p, -, rfl⟩ := List.mem_map.mp ht
    exact ser_clean _
  refine ⟨by rw [el]; exact e, by rw [el]; simp, fun i l hi => ⟨ser (answer P (w i) (trim l.text)), answer P (w i) (trim l.text), ?_, readJson_ser _, answer_ok ..⟩⟩
  rw [el, List.getElem?_map, List.getElem?_zipIdx, hi]
  simp

/-- **C55** The total a status answer gives counts the stripes the device has: every sector lies in one of them, and each has a sector
of the device. -/
theorem C55_total {target ss : Nat} (source fetched : Nat) (hs : 0 < ss) :
    (∀ x, x < target → x / ss < (report target ss source fetched).1) ∧
    (∀ k, k < (report target ss source fetched).1 → k * ss < target) ∧ (report target ss source fetched).2 = (source, fetched) := by
  refine ⟨fun x hx => ?_, fun k hk => ?_, rfl⟩
  · show x / ss < (target + ss - 1) / ss
    rw [Nat.lt_iff_add_one_le, Nat.le_div_iff_mul_le hs, Nat.add_mul, Nat.one_mul]
    have := Nat.div_mul_le_self x ss
    omega
  · have hk : k + 1 ≤ (target + ss - 1) / ss := hk
    rw [Nat.le_div_iff_mul_le hs, Nat.add_mul, Nat.one_mul] at hk
    omega

example : report 17 8 2 1 = (3, 2, 1) := rfl

/-- If sending an answer fails the session ends there: what was sent before are the answers of the other case. -/
theorem C55_send_failure {P : Params} {w : Nat → Snap} {sendOk : Nat → Bool} (input : Bytes) :
    session P w sendOk input <+: session P w (fun _ => true) input := by
  unfold session
  generalize 0 = i
  induction rawLines input generalizing i with
  | nil => exact List.prefix_refl _
  | cons l ls ih =>
    rw [serve, serve]
    cases P.utf8 l with
    | none => exact List.prefix_refl _
    | some t =>
      simp only
      split
      · exact ih i
      · split
        · simp only [if_true, List.flatten_cons]
          exact (List.prefix_append_right_inj _).mpr (ih (i + 1))
        · exact List.nil_prefix

/-- A line that is not text ends the session: neither it nor any later line is answered. -/
theorem C55_not_text_ends_session {P : Params} {w : Nat → Snap} {ls : List Line} (h : ∀ l ∈ ls, l.ok P) {bad : Bytes}
    (h10 : (10 : UInt8) ∉ bad) (hb : P.utf8 (bad ++ [10]) = none) (rest : Bytes) :
    session P w (fun _ => true) (wire ls none ++ bad ++ 10 :: rest) = session P w (fun _ => true) (wire ls none) := by
  unfold session
  congr 1
  generalize 0 = i
  induction ls generalizing i with
  | nil =>
    show serve P w _ i (rawLines ([] ++ bad ++ 10 :: rest)) = _
    rw [List.nil_append, rawLines_line h10, serve, hb]; rfl
  | cons l ls ih =>
    obtain ⟨h1, h2, -⟩ := h l (by simp)
    have e : wire (l :: ls) none = l.bytes ++ 10 :: wire ls none := by simp [wire]
    rw [e, List.append_assoc, List.append_assoc, List.cons_append, ← List.append_assoc (wire ls none), rawLines_line h1, rawLines_line h1]
    rw [serve, serve, h2]
    simp only [ih fun l hl => h l (by simp [hl])]

/-! ### Cases -/

/-- Parameters for the cases: ASCII text, requests written without white space. -/
def demoParams : Params where
  version := "0.3".toList
  parse := fun t => match readJson t with
    | some (.obj [(k, .str c)]) => if k = "command".toList then .ok c else .error "missing field `command`".toList
    | _ => .error "expected value".toList
  utf8 := fun b => if b.all (· < 128) then some (b.map fun x => Char.ofNat x.toNat) else none

/-- A line of ASCII text. -/
def asciiLine (s : String) : Line := ⟨s.toList.map fun c => UInt8.ofNat c.toNat, s.toList⟩

/-- Three lines: a request, a blank line, rubbish. -/
def demoLines : List Line := [asciiLine "{\"command\":\"version\"}", asciiLine "  ", asciiLine "hello"]

theorem demo_ok : ∀ l ∈ demoLines, l.ok demoParams := by
  intro l hl
  simp only [demoLines, List.mem_cons, List.not_mem_nil, or_false] at hl
  rcases hl with rfl | rfl | rfl <;> exact ⟨by decide +kernel, by decide +kernel, by decide +kernel⟩

example : (∀ l ∈ demoLines, l.ok demoParams) ∧
    linesOf (session demoParams (fun _ => ⟨none, []⟩) (fun _ => true) (wire demoLines (some (asciiLine "{\"command\":\"a\\nb\"}")))) =
      ["{\"version\":\"0.3\"}".toList, "{\"error\":\"invalid request: expected value\"}".toList,
       "{\"error\":\"unknown command: a\\nb\"}".toList] := ⟨demo_ok, by decide +kernel⟩

/-- C55 as written in English is false: the second of two lines asks for the version and gets no answer, because the
first one (one byte 0xFF) is not text. -/
theorem C55_false : ∃ (P : Params) (w : Nat → Snap) (bad : Bytes) (l : Line), l.ok P ∧ ¬ blank l.text ∧
    P.parse (trim l.text) = .ok "version".toList ∧ session P w (fun _ => true) (bad ++ 10 :: wire [l] none) = [] ∧
    session P w (fun _ => true) (wire [l] none) ≠ [] := by
  refine ⟨demoParams, fun _ => ⟨none, []⟩, [255], asciiLine "{\"command\":\"version\"}", demo_ok _ (by simp [demoLines]), by decide +kernel, ?_,
    ?_, by decide +kernel⟩
  · have : (demoParams.parse (trim (asciiLine "{\"command\":\"version\"}").text)).toOption = some "version".toList := by decide +kernel
    cases h : demoParams.parse (trim (asciiLine "{\"command\":\"version\"}").text) with
    | ok c => rw [h] at this; simp only [Except.toOption, Option.some.injEq] at this; rw [this]
    | error e => rw [h] at this; simp [Except.toOption] at this
  · exact C55_not_text_ends_session (P := demoParams) (ls := []) (by simp) (by decide) (by decide +kernel) _

end Verif.Rpc
