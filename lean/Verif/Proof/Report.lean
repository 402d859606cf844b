import Verif.Spec.Report
import Verif.Proof.Rpc
import Verif.Props.Secrets

/-! # Error reports: proofs -/

namespace Verif.Report
open Verif Verif.Config

/-! ## Lines and parts -/

theorem lines_ne (t : Text) : lines t ≠ [] := by
  cases t with
  | nil => simp [lines]
  | cons c t => simp only [lines]; split <;> (try split) <;> simp

theorem lines_one {l : Text} (h : '\n' ∉ l) : lines l = [l] := by
  induction l with
  | nil => rfl
  | cons c l ih =>
    simp only [List.mem_cons, not_or] at h
    simp only [lines, ih h.2]
    rw [if_neg (fun hc => h.1 hc.symm)]

theorem lines_more {l : Text} (h : '\n' ∉ l) (t : Text) : lines (l ++ '\n' :: t) = l :: lines t := by
  induction l with
  | nil =>
    simp only [List.nil_append, lines]
    cases hl : lines t with
    | nil => exact absurd hl (lines_ne t)
    | cons a as => simp
  | cons c l ih =>
    simp only [List.mem_cons, not_or] at h
    simp only [List.cons_append, lines, ih h.2]
    rw [if_neg (fun hc => h.1 hc.symm)]

theorem told_eq (m : Text) (l : Loc) : at_ m l = told (m, l) := by
  obtain ⟨f, n⟩ := l
  simp [at_, told, Loc.text]

theorem causedBy_eq : causedBy = "\n  - caused by: ".toList := rfl

theorem report_context (e : Failure) (m : Text) (l : Loc) :
    (e.context m l).report = told (m, l) ++ ("\n  - caused by: ".toList ++ e.report) := by
  rw [← causedBy_eq]
  obtain ⟨c, loc, cs⟩ := e
  simp only [Failure.report, Failure.context, contextsText, List.reverse_append, List.reverse_cons, List.reverse_nil, List.nil_append,
    List.cons_append]
  rw [told_eq]
  cases h : cs.reverse with
  | nil => simp only [List.flatMap_nil, List.nil_append, List.append_assoc]
  | cons c older => simp only [List.flatMap_cons, List.append_assoc]

theorem report_story {e : Failure} {s : Text × Loc} {rest : List (Text × Loc)} (h : e.story = s :: rest) :
    e.report = told s ++ rest.flatMap (fun p => "\n  - caused by: ".toList ++ told p) := by
  rw [← causedBy_eq]
  obtain ⟨c, loc, cs⟩ := e
  simp only [Failure.story] at h
  simp only [Failure.report, contextsText]
  rw [told_eq]
  cases hr : cs.reverse with
  | nil =>
    rw [hr] at h
    simp only [List.nil_append, List.cons.injEq] at h
    rw [← h.2, ← h.1]
    simp only [List.flatMap_nil, List.append_nil, List.nil_append]
  | cons c older =>
    rw [hr] at h
    simp only [List.cons_append, List.cons.injEq] at h
    rw [← h.1, ← h.2]
    have e : (fun o : Text × Loc => causedBy ++ at_ o.1 o.2) = fun p => causedBy ++ told p := by
      funext o; rw [told_eq]
    rw [e]
    simp only [told_eq]
    simp only [List.flatMap_append, List.flatMap_cons, List.flatMap_nil, List.append_nil, List.append_assoc]

theorem digits_no {c : Char} (hc : c.isDigit = false) (n : Nat) : c ∉ Nat.toDigits 10 n := by
  intro h
  have := Nat.isDigit_of_mem_toDigits (by omega) (by omega) h
  rw [hc] at this
  cases this

theorem told_clean {p : Text × Loc} (h : '\n' ∉ p.1) (h' : '\n' ∉ p.2.file) : '\n' ∉ told p := by
  simp [told, h, h', digits_no (c := '\n') rfl]

theorem lines_story {s : Text × Loc} (rest : List (Text × Loc)) (hs : '\n' ∉ s.1 ∧ '\n' ∉ s.2.file)
    (hr : ∀ p ∈ rest, '\n' ∉ p.1 ∧ '\n' ∉ p.2.file) :
    ∀ pre : Text, '\n' ∉ pre → lines (pre ++ told s ++ rest.flatMap (fun p => "\n  - caused by: ".toList ++ told p)) =
      (pre ++ told s) :: rest.map (fun p => "  - caused by: ".toList ++ told p) := by
  induction rest generalizing s with
  | nil =>
    intro pre hp
    simp only [List.flatMap_nil, List.append_nil, List.map_nil]
    exact lines_one (by simp [hp, told_clean hs.1 hs.2])
  | cons p rest ih =>
    intro pre hp
    have := ih (hr p List.mem_cons_self) (fun q hq => hr q (List.mem_cons_of_mem _ hq)) "  - caused by: ".toList (by simp)
    rw [List.map_cons, ← this]
    rw [← lines_more (by simp [hp, told_clean hs.1 hs.2])]
    simp

/-! ## Reading a part -/

theorem first_split {α : Type} {c : α} {a a' b b' : List α} (h : c ∉ a) (h' : c ∉ a') (he : a ++ c :: b = a' ++ c :: b') : a = a' ∧ b = b' := by
  induction a generalizing a' with
  | nil =>
    cases a' with
    | nil => simpa using he
    | cons x a' => simp only [List.nil_append, List.cons_append, List.cons.injEq] at he; simp [he.1] at h'
  | cons x a ih =>
    cases a' with
    | nil => simp only [List.nil_append, List.cons_append, List.cons.injEq] at he; simp [he.1] at h
    | cons y a' =>
      simp only [List.cons_append, List.cons.injEq] at he
      simp only [List.mem_cons, not_or] at h h'
      obtain ⟨h1, h2⟩ := ih h.2 h'.2 he.2
      exact ⟨by rw [he.1, h1], h2⟩

theorem last_split {α : Type} {c : α} {a a' b b' : List α} (h : c ∉ b) (h' : c ∉ b') (he : a ++ c :: b = a' ++ c :: b') : a = a' ∧ b = b' := by
  have hr := congrArg List.reverse he
  simp only [List.reverse_append, List.reverse_cons, List.append_assoc, List.cons_append, List.nil_append] at hr
  obtain ⟨h1, h2⟩ := first_split (by simpa using h) (by simpa using h') hr
  exact ⟨List.reverse_inj.mp h2, List.reverse_inj.mp h1⟩

theorem digits_inj {n m : Nat} (h : Nat.toDigits 10 n = Nat.toDigits 10 m) : n = m := by
  have := congrArg (fun t => Nat.ofDigitChars 10 t 0) h
  simpa using this

theorem told_inj {p q : Text × Loc} (hp : '(' ∉ p.2.file) (hq : '(' ∉ q.2.file) (h : told p = told q) : p = q := by
  obtain ⟨m, f, n⟩ := p
  obtain ⟨m', f', n'⟩ := q
  simp only at hp hq
  have e : ∀ (m f : Text) (n : Nat), told (m, ⟨f, n⟩) = (m ++ [' ']) ++ '(' :: ("at ".toList ++ (f ++ ':' :: (Nat.toDigits 10 n ++ [')']))) := by
    intro m f n; simp [told]
  rw [e, e] at h
  obtain ⟨h1, h2⟩ := last_split (by simp [hp, digits_no (c := '(') rfl]) (by simp [hq, digits_no (c := '(') rfl]) h
  obtain ⟨h3, h4⟩ := last_split (by simp [digits_no (c := ':') rfl]) (by simp [digits_no (c := ':') rfl]) (List.append_cancel_left h2)
  have h5 := List.append_cancel_right h1
  have h6 := digits_inj (List.append_cancel_right h4)
  rw [h5, h3, h6]

theorem parts_inj {ps qs : List (Text × Loc)} (hp : ∀ p ∈ ps, '(' ∉ p.2.file) (hq : ∀ p ∈ qs, '(' ∉ p.2.file)
    (h : ps.map (fun p => "  - caused by: ".toList ++ told p) = qs.map (fun p => "  - caused by: ".toList ++ told p)) : ps = qs := by
  induction ps generalizing qs with
  | nil =>
    cases qs with
    | nil => rfl
    | cons q qs => simp at h
  | cons p ps ih =>
    cases qs with
    | nil => simp at h
    | cons q qs =>
      simp only [List.map_cons, List.cons.injEq] at h
      rw [told_inj (hp p List.mem_cons_self) (hq q List.mem_cons_self) (List.append_cancel_left h.1),
        ih (fun r hr => hp r (List.mem_cons_of_mem _ hr)) (fun r hr => hq r (List.mem_cons_of_mem _ hr)) h.2]

/-! ## Reading the cause -/

/-- A number for the first two characters of a cause's text. -/
def key : Cause → Nat
  | .thread _ => 0
  | .guestMemory _ => 1
  | .io _ => 2
  | .channel _ => 3
  | .parameter _ => 4
  | .metadata _ => 5
  | .protocol _ => 6
  | .missingStripeMetadata => 7
  | .stripeUnavailable _ => 8
  | .stripeSize _ _ _ => 8
  | .fetchFailed _ => 8
  | .fetchTimeout _ => 8
  | .remoteStatus _ => 9
  | .tls _ => 10
  | .rpc _ => 11
  | .vhostUser _ => 12
  | .vhostBackend _ => 12
  | .archive _ => 13
  | .crypto _ => 14
  | .cpuPinning _ => 15
  | .ublk _ => 16

/-- The two characters. -/
def pairs : List Text := ["Th".toList, "Gu".toList, "I/".toList, "Ch".toList, "In".toList, "Me".toList, "Pr".toList, "Mi".toList, "St".toList,
  "Re".toList, "TL".toList, "RP".toList, "Vh".toList, "Ar".toList, "Cr".toList, "CP".toList, "Ub".toList]

theorem key_text (c : Cause) : pairs[key c]? = some (c.text.take 2) := by cases c <;> rfl

theorem pairs_inj {i j : Nat} {t : Text} (hi : pairs[i]? = some t) (hj : pairs[j]? = some t) : i = j := by
  obtain ⟨h1, e1⟩ := List.getElem?_eq_some_iff.mp hi
  obtain ⟨h2, e2⟩ := List.getElem?_eq_some_iff.mp hj
  exact (List.getElem_inj (xs := pairs) (h₀ := h1) (h₁ := h2) (by decide)).mp (e1.trans e2.symm)

theorem key_inj {c c' : Cause} (h : c.text = c'.text) : key c = key c' := by
  have h1 := key_text c
  rw [h] at h1
  exact pairs_inj h1 (key_text c')

theorem digits_split {n m : Nat} {c d : Char} {s t : Text} (hc : c.isDigit = false) (hd : d.isDigit = false)
    (h : Nat.toDigits 10 n ++ c :: s = Nat.toDigits 10 m ++ d :: t) : n = m ∧ c :: s = d :: t := by
  have h1 := congrArg (List.takeWhile Char.isDigit) h
  have h2 := congrArg (List.dropWhile Char.isDigit) h
  have all : ∀ k, ∀ x ∈ Nat.toDigits 10 k, Char.isDigit x = true := fun k x hx => Nat.isDigit_of_mem_toDigits (by omega) (by omega) hx
  rw [List.takeWhile_append_of_pos (all n), List.takeWhile_append_of_pos (all m), List.takeWhile_cons_of_neg (by simp [hc]),
    List.takeWhile_cons_of_neg (by simp [hd]), List.append_nil, List.append_nil] at h1
  rw [List.dropWhile_append_of_pos (all n), List.dropWhile_append_of_pos (all m), List.dropWhile_cons_of_neg (by simp [hc]),
    List.dropWhile_cons_of_neg (by simp [hd])] at h2
  exact ⟨digits_inj h1, h2⟩

theorem digits_head (n : Nat) (c : Char) (s t : Text) (hc : c.isDigit = false) : Nat.toDigits 10 n ++ s ≠ c :: t := by
  intro h
  cases hd : Nat.toDigits 10 n with
  | nil => have := Nat.toDigits_ne_nil (n := n) (b := 10); exact this hd
  | cons x xs =>
    rw [hd] at h
    simp only [List.cons_append, List.cons.injEq] at h
    have := Nat.isDigit_of_mem_toDigits (b := 10) (n := n) (c := x) (by omega) (by omega) (by rw [hd]; exact List.mem_cons_self)
    rw [h.1, hc] at this
    cases this

theorem vhost_apart (s t : Text) : "Vhost user error: ".toList ++ s ≠ "Vhost user backend error: ".toList ++ t := by
  intro h
  have := congrArg (fun l => l.take 12) h
  exact absurd this (by simp)

theorem digits_apart (n : Nat) (s t : Text) (u : Text) : Nat.toDigits 10 n ++ s ≠ "fetch ".toList ++ (t ++ u) := by
  exact digits_head n 'f' s _ rfl

/-- The text of a cause determines it. -/
theorem text_inj {c c' : Cause} (h : c.text = c'.text) : c = c' := by
  have hk := key_inj h
  cases c <;> cases c' <;> first | exact absurd hk (Nat.ne_of_beq_eq_false rfl) | skip
  case thread.thread s t => exact congrArg _ (List.append_cancel_left h)
  case guestMemory.guestMemory s t => exact congrArg _ (List.append_cancel_left h)
  case io.io s t => exact congrArg _ (List.append_cancel_left h)
  case channel.channel s t => exact congrArg _ (List.append_cancel_left h)
  case parameter.parameter s t => exact congrArg _ (List.append_cancel_left h)
  case metadata.metadata s t => exact congrArg _ (List.append_cancel_left h)
  case protocol.protocol s t => exact congrArg _ (List.append_cancel_left h)
  case tls.tls s t => exact congrArg _ (List.append_cancel_left h)
  case rpc.rpc s t => exact congrArg _ (List.append_cancel_left h)
  case vhostUser.vhostUser s t => exact congrArg _ (List.append_cancel_left h)
  case vhostBackend.vhostBackend s t => exact congrArg _ (List.append_cancel_left h)
  case archive.archive s t => exact congrArg _ (List.append_cancel_left h)
  case crypto.crypto s t => exact congrArg _ (List.append_cancel_left h)
  case cpuPinning.cpuPinning s t => exact congrArg _ (List.append_cancel_left h)
  case ublk.ublk s t => exact congrArg _ (List.append_cancel_left h)
  case missingStripeMetadata.missingStripeMetadata => rfl
  case remoteStatus.remoteStatus n m => exact congrArg _ (digits_inj (List.append_cancel_left h))
  case vhostUser.vhostBackend s t => exact absurd h (vhost_apart s t)
  case vhostBackend.vhostUser s t => exact absurd h.symm (vhost_apart t s)
  case stripeUnavailable.stripeUnavailable n m =>
    exact congrArg _ (digits_split (c := ' ') (d := ' ') rfl rfl (List.append_cancel_left h)).1
  case stripeUnavailable.stripeSize n m e a =>
    exact absurd (digits_split (c := ' ') (d := ' ') rfl rfl (List.append_cancel_left h)).2 (by simp)
  case stripeSize.stripeUnavailable m e a n =>
    exact absurd (digits_split (c := ' ') (d := ' ') rfl rfl (List.append_cancel_left h)).2 (by simp)
  case stripeSize.stripeSize n e a n' e' a' =>
    have h1 := digits_split (c := ' ') (d := ' ') rfl rfl (List.append_cancel_left h)
    have h2 := digits_split (c := ' ') (d := ' ') rfl rfl (List.append_cancel_left (as := " size mismatch: expected ".toList) h1.2)
    have h3 := digits_split (c := ' ') (d := ' ') rfl rfl (List.append_cancel_left (as := " bytes, got ".toList) h2.2)
    rw [h1.1, h2.1, h3.1]
  case stripeUnavailable.fetchFailed n m =>
    exact absurd (List.append_cancel_left h) (digits_apart n _ "failed for stripe ".toList _)
  case fetchFailed.stripeUnavailable m n =>
    exact absurd (List.append_cancel_left h).symm (digits_apart n _ "failed for stripe ".toList _)
  case stripeSize.fetchFailed n e a m =>
    exact absurd (List.append_cancel_left h) (digits_apart n _ "failed for stripe ".toList _)
  case fetchFailed.stripeSize m n e a =>
    exact absurd (List.append_cancel_left h).symm (digits_apart n _ "failed for stripe ".toList _)
  case fetchFailed.fetchFailed n m =>
    exact congrArg _ (digits_inj (List.append_cancel_left (List.append_cancel_left h)))
  case stripeUnavailable.fetchTimeout n m =>
    exact absurd (List.append_cancel_left h) (digits_apart n _ "timeout for stripe ".toList _)
  case fetchTimeout.stripeUnavailable m n =>
    exact absurd (List.append_cancel_left h).symm (digits_apart n _ "timeout for stripe ".toList _)
  case stripeSize.fetchTimeout n e a m =>
    exact absurd (List.append_cancel_left h) (digits_apart n _ "timeout for stripe ".toList _)
  case fetchTimeout.stripeSize m n e a =>
    exact absurd (List.append_cancel_left h).symm (digits_apart n _ "timeout for stripe ".toList _)
  case fetchTimeout.fetchTimeout n m =>
    exact congrArg _ (digits_inj (List.append_cancel_left (List.append_cancel_left h)))
  case fetchFailed.fetchTimeout n m =>
    have := congrArg (fun l => l.take 7) (List.append_cancel_left h)
    exact absurd this (by simp)
  case fetchTimeout.fetchFailed n m =>
    have := congrArg (fun l => l.take 7) (List.append_cancel_left h)
    exact absurd this (by simp)

/-! ## The same resolution -/

/-- Both succeed with the same value, or both fail. -/
def Same {α : Type} (x : Except Failure α) (y : Except SErr α) : Prop := x.toOption = y.toOption

theorem Same.elim {α : Type} {x : Except Failure α} {y : Except SErr α} (h : Same x y) :
    (∃ e e', x = .error e ∧ y = .error e') ∨ ∃ a, x = .ok a ∧ y = .ok a := by
  cases x with
  | error e =>
    cases y with
    | error e' => exact Or.inl ⟨e, e', rfl, rfl⟩
    | ok a => cases h
  | ok a =>
    cases y with
    | error e' => cases h
    | ok a' => cases h; exact Or.inr ⟨a, rfl, rfl⟩

theorem same_file (b : Box) (dz : DangerZone) (n : String) (p : List Char) : Same (loadFile b dz n p) (Config.loadFile b.world dz p) := by
  unfold loadFile Config.loadFile
  simp only [Box.world]
  cases hf : b.file p with
  | cannotOpen => rfl
  | cannotStat => rfl
  | opened r c =>
    dsimp only
    split
    · rfl
    · cases c <;> rfl

theorem same_env (b : Box) (dz : DangerZone) (n v : String) : Same (loadEnv b dz n v) (Config.loadEnv b.world dz v) := by
  unfold loadEnv Config.loadEnv Box.world
  dsimp only
  split
  · rfl
  · cases h : b.var v with
    | none => rfl
    | some x =>
      cases hu : b.unicode x <;> simp [Option.filter, hu, Same, Except.toOption]

theorem same_source (b : Box) (dz : DangerZone) (n : String) (s : Source) (enc : Bool) :
    Same (loadSource b dz n s enc) (Config.loadSource b.world dz s enc) := by
  cases s with
  | file p => exact same_file b dz n p
  | inline t =>
    simp only [loadSource, Config.loadSource, loadInline, Config.loadInline]
    split <;> rfl
  | env v => exact same_env b dz n v

theorem same_decode (b : Box) (x : Bool) (t : Bytes) : Same (decode b x t) (Config.decode b.world x t) := by
  unfold decode Config.decode
  split
  · simp only [Box.world]
    cases b.b64 (trimEnd t) <;> rfl
  · rfl

theorem same_gcm (b : Box) (k aad ct : Bytes) : (gcmDecrypt b k aad ct).toOption = (Crypt.gcmDecrypt b.world.gcm k aad ct).toOption := by
  unfold gcmDecrypt Crypt.gcmDecrypt Crypt.newCipher
  by_cases hk : k.length = 32
  · simp only [if_pos hk]
    by_cases hc : ct.length < 12 + 16
    · simp only [if_pos hc]; rfl
    · simp only [if_neg hc, Box.world]
      cases b.gcm.openAt k (ct.take 12) aad (ct.drop 12) <;> rfl
  · simp only [if_neg hk]; rfl

theorem same_maybe (b : Box) (dz : DangerZone) (n : String) (d : SecretDef) (r : List (String × Bytes)) :
    Same (maybeResolve b dz n d r) (Config.maybeResolve b.world dz n d r) := by
  unfold maybeResolve Config.maybeResolve loadDecoded
  cases hk : d.encryptedBy with
  | none =>
    dsimp only [Option.isSome]
    rcases (same_source b dz n d.source false).elim with ⟨e, e', h1, h2⟩ | ⟨t, h1, h2⟩
    · rw [h1, h2]; rfl
    · rw [h1, h2]
      dsimp only
      rcases (same_decode b d.base64 t).elim with ⟨e, e', h1, h2⟩ | ⟨v, h1, h2⟩
      · rw [h1, h2]; rfl
      · rw [h1, h2]
        dsimp only [validateLength]
        by_cases hl : v.length > MAX_SECRET
        · simp only [if_pos hl]; rfl
        · simp only [if_neg hl]; rfl
  | some k =>
    dsimp only [Option.isSome]
    cases r.lookup k with
    | none => rfl
    | some kek =>
      dsimp only
      rcases (same_source b dz n d.source true).elim with ⟨e, e', h1, h2⟩ | ⟨t, h1, h2⟩
      · rw [h1, h2]; rfl
      · rw [h1, h2]
        dsimp only
        rcases (same_decode b d.base64 t).elim with ⟨e, e', h1, h2⟩ | ⟨v, h1, h2⟩
        · rw [h1, h2]; rfl
        · rw [h1, h2]
          dsimp only [validateLength]
          by_cases hl : v.length > MAX_SECRET
          · simp only [if_pos hl]; rfl
          · simp only [if_neg hl]
            have hg := same_gcm b kek (b.utf8 n) v
            show Same _ (match Crypt.gcmDecrypt b.world.gcm kek (b.utf8 n) v with | .error _ => .error .decrypt | .ok b => .ok (some b))
            cases h1 : gcmDecrypt b kek (b.utf8 n) v with
            | error e =>
              rw [h1] at hg
              cases h2 : Crypt.gcmDecrypt b.world.gcm kek (b.utf8 n) v with
              | error e' => rfl
              | ok a => rw [h2] at hg; cases hg
            | ok a =>
              rw [h1] at hg
              cases h2 : Crypt.gcmDecrypt b.world.gcm kek (b.utf8 n) v with
              | error e' => rw [h2] at hg; cases hg
              | ok a' => rw [h2] at hg; cases hg; rfl

theorem same_pass (b : Box) (dz : DangerZone) (ds : List (String × SecretDef)) (r : List (String × Bytes)) :
    Same (pass b dz ds r) (Config.pass b.world dz ds r) := by
  induction ds generalizing r with
  | nil => rfl
  | cons p ds ih =>
    obtain ⟨n, d⟩ := p
    simp only [pass, Config.pass]
    rcases (same_maybe b dz n d r).elim with ⟨e, e', h1, h2⟩ | ⟨o, h1, h2⟩
    · rw [h1, h2]; rfl
    · rw [h1, h2]
      cases o with
      | some v => exact ih _
      | none =>
        dsimp only
        rcases (ih r).elim with ⟨e, e', h1, h2⟩ | ⟨o, h1, h2⟩
        · rw [h1, h2]; rfl
        · rw [h1, h2]; rfl

theorem loop_error {b : Box} {dz : DangerZone} {c : Nat} {ds : List (String × SecretDef)} {r : List (String × Bytes)} {e : Failure}
    (hc : r.length < c) (h : pass b dz ds r = .error e) : resolveLoop b dz c ds r = .error e := by
  unfold resolveLoop
  rw [if_pos hc]
  split
  · rename_i hx; rw [h] at hx; cases hx; rfl
  · rename_i hx; rw [h] at hx; cases hx

theorem loop_ok {b : Box} {dz : DangerZone} {c : Nat} {ds rest : List (String × SecretDef)} {r r' : List (String × Bytes)}
    (hc : r.length < c) (h : pass b dz ds r = .ok (r', rest)) : resolveLoop b dz c ds r =
      if rest.length = ds.length then .error (bad 142 "circular secret references detected".toList) else resolveLoop b dz c rest r' := by
  rw [resolveLoop, if_pos hc]
  split
  · rename_i hx; rw [h] at hx; cases hx
  · rename_i hx; rw [h] at hx; cases hx; rfl

theorem loop_error' {w : World} {dz : DangerZone} {c : Nat} {ds : List (String × SecretDef)} {r : List (String × Bytes)} {e : SErr}
    (hc : r.length < c) (h : Config.pass w dz ds r = .error e) : Config.resolveLoop w dz c ds r = .error e := by
  unfold Config.resolveLoop
  rw [if_pos hc]
  split
  · rename_i hx; rw [h] at hx; cases hx; rfl
  · rename_i hx; rw [h] at hx; cases hx

theorem loop_ok' {w : World} {dz : DangerZone} {c : Nat} {ds rest : List (String × SecretDef)} {r r' : List (String × Bytes)}
    (hc : r.length < c) (h : Config.pass w dz ds r = .ok (r', rest)) : Config.resolveLoop w dz c ds r =
      if rest.length = ds.length then .error .circular else Config.resolveLoop w dz c rest r' := by
  rw [Config.resolveLoop, if_pos hc]
  split
  · rename_i hx; rw [h] at hx; cases hx
  · rename_i hx; rw [h] at hx; cases hx; rfl

theorem same_loop (b : Box) (dz : DangerZone) (c : Nat) : ∀ (k : Nat) (ds : List (String × SecretDef)) (r : List (String × Bytes)),
    ds.length ≤ k → Same (resolveLoop b dz c ds r) (Config.resolveLoop b.world dz c ds r) := by
  intro k
  induction k with
  | zero =>
    intro ds r hl
    have : ds = [] := List.length_eq_zero_iff.mp (by omega)
    subst this
    unfold resolveLoop Config.resolveLoop
    split
    · simp only [pass, Config.pass]; rfl
    · rfl
  | succ k ih =>
    intro ds r hl
    by_cases hc : r.length < c
    · rcases (same_pass b dz ds r).elim with ⟨e, e', h1, h2⟩ | ⟨⟨r', rest⟩, h1, h2⟩
      · rw [loop_error hc h1, loop_error' hc h2]; rfl
      · rw [loop_ok hc h1, loop_ok' hc h2]
        split
        · rfl
        · have := pass_length h1
          exact ih rest r' (by omega)
    · unfold resolveLoop Config.resolveLoop
      rw [if_neg hc, if_neg hc]
      rfl

theorem firstMissing_iff (defs ds : List (String × SecretDef)) :
    (firstMissing defs ds).isSome =
      ds.any fun p => match p.2.encryptedBy with | some k => !(defs.any fun q => q.1 = k) | none => false := by
  induction ds with
  | nil => rfl
  | cons p ds ih =>
    obtain ⟨n, d⟩ := p
    simp only [firstMissing, List.any_cons]
    cases d.encryptedBy with
    | none => simpa using ih
    | some k =>
      dsimp only
      cases hq : defs.any fun q => decide (q.1 = k) with
      | true => simpa using ih
      | false => simp

/-! ## What a report is made of -/

theorem source_text {b : Box} {dz : DangerZone} {n : String} {s : Source} {enc : Bool} {t : Bytes} (h : loadSource b dz n s enc = .ok t) :
    sourceText b.world s = some t := by
  cases s with
  | file p =>
    simp only [loadSource, loadFile] at h
    simp only [sourceText, Box.world]
    cases hf : b.file p with
    | cannotOpen => rw [hf] at h; cases h
    | cannotStat => rw [hf] at h; cases h
    | opened r c =>
      rw [hf] at h
      dsimp only at h
      split at h
      · cases h
      · cases c with
        | none => cases h
        | some c => cases h; rfl
  | inline x =>
    simp only [loadSource, loadInline] at h
    split at h
    · cases h
    · cases h; rfl
  | env v =>
    simp only [loadSource, loadEnv] at h
    simp only [sourceText, Box.world]
    split at h
    · cases h
    · cases hv : b.var v with
      | none => rw [hv] at h; cases h
      | some x =>
        rw [hv] at h
        dsimp only at h
        split at h
        · rename_i hu; cases h; simp [Option.filter, hu]
        · cases h

theorem of_eq (n : String) : of n = "secrets.".toList ++ (chars n ++ ": ".toList) := rfl

theorem circular_eq : circularReport =
    "Invalid parameter error: circular secret references detected (at src/config/v2/secrets.rs:142)".toList := rfl

theorem text_parameter (t : Text) : (Cause.parameter t).text = "Invalid parameter error: ".toList ++ t := rfl

theorem text_io (t : Text) : (Cause.io t).text = "I/O error: ".toList ++ t := rfl

theorem told_here {l : Nat} {d : Text} (h : Nat.toDigits 10 l = d) (m : Text) :
    told (m, here l) = m ++ (" (at src/config/v2/secrets.rs:".toList ++ (d ++ ")".toList)) := by
  subst h
  have r : told (m, here l) =
    m ++ " (at ".toList ++ "src/config/v2/secrets.rs".toList ++ ":".toList ++ Nat.toDigits 10 l ++ ")".toList := rfl
  rw [r]
  generalize Nat.toDigits 10 l = d
  simp

theorem told_inKey {l : Nat} {d : Text} (h : Nat.toDigits 10 l = d) (m : Text) :
    told (m, inKey l) = m ++ (" (at src/crypt/key.rs:".toList ++ (d ++ ")".toList)) := by
  subst h
  have r : told (m, inKey l) = m ++ " (at ".toList ++ "src/crypt/key.rs".toList ++ ":".toList ++ Nat.toDigits 10 l ++ ")".toList := rfl
  rw [r]
  generalize Nat.toDigits 10 l = d
  simp

theorem told_converted (m : Text) : told (m, converted) = m ++ " (at src/error.rs:305)".toList := by
  have r : told (m, converted) = m ++ " (at ".toList ++ "src/error.rs".toList ++ ":".toList ++ Nat.toDigits 10 305 ++ ")".toList := rfl
  rw [r, show Nat.toDigits 10 305 = "305".toList by decide]
  simp

theorem fresh_report (c : Cause) (l : Loc) : (fresh c l).report = told (c.text, l) := by
  have r : (fresh c l).report = at_ c.text l := rfl
  rw [r, told_eq]

theorem bad_report {l : Nat} {d : Text} (h : Nat.toDigits 10 l = d) (t : Text) : (bad l t).report =
    "Invalid parameter error: ".toList ++ (t ++ (" (at src/config/v2/secrets.rs:".toList ++ (d ++ ")".toList))) := by
  have r : (bad l t).report = (fresh (.parameter t) (here l)).report := rfl
  rw [r, fresh_report, told_here h, text_parameter, List.append_assoc]

theorem source_error {b : Box} {dz : DangerZone} {n : String} {d : SecretDef} {enc : Bool} {e : Failure}
    (h : loadSource b dz n d.source enc = .error e) :
    e.report ∈ sourceReports b.os n (whereOf d.source) ∨ Quotes b n d e.report := by
  cases hs : d.source with
  | file p =>
    rw [hs] at h
    refine Or.inl ?_
    simp only [loadSource, loadFile] at h
    simp only [whereOf, sourceReports]
    cases hf : b.file p with
    | cannotOpen =>
      rw [hf] at h; cases h
      rw [bad_report (d := "220".toList) (by decide)]
      exact List.mem_of_getElem? (i := 0) (by simp only [of_eq]; generalize chars n = nt; simp)
    | cannotStat =>
      rw [hf] at h; cases h
      rw [bad_report (d := "227".toList) (by decide)]
      exact List.mem_of_getElem? (i := 1) (by simp only [of_eq]; generalize chars n = nt; simp)
    | opened r c =>
      rw [hf] at h
      dsimp only at h
      split at h
      · cases h
        rw [bad_report (d := "233".toList) (by decide)]
        exact List.mem_of_getElem? (i := 2) (by simp only [of_eq]; generalize chars n = nt; simp)
      · cases c with
        | some c => cases h
        | none =>
          cases h
          refine List.mem_of_getElem? (i := 3) ?_
          rw [report_context, fresh_report, told_here (d := "245".toList) (by decide), told_converted, text_io]
          simp only [of_eq]
          generalize chars n = nt
          simp
  | inline x =>
    rw [hs] at h
    refine Or.inl ?_
    simp only [loadSource, loadInline] at h
    simp only [whereOf, sourceReports]
    split at h
    · cases h
      rw [bad_report (d := "257".toList) (by decide)]
      exact List.mem_of_getElem? (i := 0) (by simp only [of_eq]; generalize chars n = nt; simp)
    · cases h
  | env v =>
    rw [hs] at h
    simp only [loadSource, loadEnv] at h
    split at h
    · cases h
      refine Or.inl ?_
      simp only [whereOf, sourceReports]
      rw [bad_report (d := "269".toList) (by decide)]
      exact List.mem_of_getElem? (i := 0) (by simp only [of_eq]; generalize chars n = nt; generalize chars v = vt; simp)
    · cases hv : b.var v with
      | none =>
        rw [hv] at h; cases h
        refine Or.inl ?_
        simp only [whereOf, sourceReports]
        rw [bad_report (d := "277".toList) (by decide)]
        exact List.mem_of_getElem? (i := 1) (by simp only [of_eq]; generalize chars n = nt; generalize chars v = vt; simp)
      | some x =>
        rw [hv] at h
        dsimp only at h
        split at h
        · cases h
        · rename_i hu
          cases h
          refine Or.inr (.envVar hs hv (by simpa using hu) ?_)
          rw [bad_report (d := "277".toList) (by decide)]
          simp only [of_eq]
          generalize chars n = nt
          generalize chars v = vt
          simp

theorem length_report {n : String} {t : Bytes} {e : Failure} (h : validateLength n t = .error e) :
    e.report = "Invalid parameter error: secrets.".toList ++ chars n ++
        ": secret data exceeds maximum allowed size of 8192 bytes (at src/config/v2/secrets.rs:209)".toList := by
  unfold validateLength at h
  split at h
  · cases h
    rw [bad_report (d := "209".toList) (by decide)]
    simp only [of_eq]
    generalize chars n = nt
    simp
  · cases h

theorem decode_error {b : Box} {x : Bool} {t : Bytes} {e : Failure} (h : decode b x t = .error e) :
    x = true ∧ ∃ s, b.b64 (trimEnd t) = .error s ∧ e = bad 200 ("invalid base64: ".toList ++ s) := by
  unfold decode at h
  split at h
  · rename_i hx
    cases hb : b.b64 (trimEnd t) with
    | ok v => rw [hb] at h; cases h
    | error s => rw [hb] at h; cases h; exact ⟨hx, s, rfl, rfl⟩
  · cases h

theorem gcm_report {b : Box} {key aad ct : Bytes} {e : Failure} (n k : String) (h : gcmDecrypt b key aad ct = .error e) :
    (e.context (of n ++ "failed to decrypt using KEK '".toList ++ chars k ++ "'".toList) (here 169)).report ∈ kekReports b.os n k := by
  refine List.mem_cons_of_mem _ ?_
  unfold gcmDecrypt at h
  rw [report_context, told_here (d := "169".toList) (by decide)]
  split at h
  · split at h
    · cases h
      refine List.mem_of_getElem? (i := 1) ?_
      rw [fresh_report, told_inKey (d := "157".toList) (by decide), text_parameter]
      simp only [of_eq]
      generalize chars n = nt
      generalize chars k = kt
      simp
    · split at h
      · cases h
      · cases h
        refine List.mem_of_getElem? (i := 2) ?_
        rw [fresh_report, told_inKey (d := "174".toList) (by decide), text_parameter]
        simp only [of_eq]
        generalize chars n = nt
        generalize chars k = kt
        simp
  · cases h
    refine List.mem_of_getElem? (i := 0) ?_
    rw [fresh_report, told_inKey (d := "145".toList) (by decide), text_parameter]
    simp only [of_eq]
    generalize chars n = nt
    generalize chars k = kt
    simp

theorem maybe_error {b : Box} {dz : DangerZone} {n : String} {d : SecretDef} {r : List (String × Bytes)} {e : Failure}
    (h : maybeResolve b dz n d r = .error e) :
    e.report ∈ oneReports b.os ⟨n, whereOf d.source, d.base64, d.encryptedBy⟩ ∨ Quotes b n d e.report := by
  unfold maybeResolve at h
  simp only [oneReports]
  split at h
  · rename_i k hk
    split at h
    · cases h
    · split at h
      · rename_i e' he
        cases h
        rcases source_error he with h | h
        · exact Or.inl (List.mem_append_left _ h)
        · exact Or.inr h
      · rename_i t ht
        split at h
        · rename_i e' he
          cases h
          obtain ⟨hx, s, hs, rfl⟩ := decode_error he
          refine Or.inr (.base64 hx (source_text ht) (trimEnd_stripped t) hs ?_)
          rw [hk, bad_report (d := "200".toList) (by decide)]
          simp
        · split at h
          · rename_i e' he
            cases h
            rw [length_report he]
            exact Or.inl (List.mem_append_right _ (List.mem_append_left _ (List.mem_singleton.mpr rfl)))
          · split at h
            · rename_i e' he
              cases h
              refine Or.inl (List.mem_append_right _ (List.mem_append_right _ ?_))
              rw [hk]
              exact gcm_report n k he
            · cases h
  · rename_i hk
    split at h
    · rename_i e' he
      cases h
      rcases source_error he with h | h
      · exact Or.inl (List.mem_append_left _ h)
      · exact Or.inr h
    · rename_i t ht
      split at h
      · rename_i e' he
        cases h
        obtain ⟨hx, s, hs, rfl⟩ := decode_error he
        refine Or.inr (.base64 hx (source_text ht) (trimEnd_stripped t) hs ?_)
        rw [hk, report_context, bad_report (d := "200".toList) (by decide)]
        rw [told_here (d := "177".toList) (by decide)]
        simp only [of_eq]
        generalize chars n = nt
        simp
      · split at h
        · rename_i e' he
          cases h
          rw [length_report he]
          exact Or.inl (List.mem_append_right _ (List.mem_append_left _ (List.mem_singleton.mpr rfl)))
        · cases h

theorem pass_error {b : Box} {dz : DangerZone} {ds : List (String × SecretDef)} {r : List (String × Bytes)} {e : Failure}
    (h : pass b dz ds r = .error e) : ∃ p ∈ ds,
      e.report ∈ oneReports b.os ⟨p.1, whereOf p.2.source, p.2.base64, p.2.encryptedBy⟩ ∨ Quotes b p.1 p.2 e.report := by
  induction ds generalizing r with
  | nil => cases h
  | cons p ds ih =>
    obtain ⟨n, d⟩ := p
    simp only [pass] at h
    split at h
    · rename_i e' he
      cases h
      exact ⟨_, List.mem_cons_self, maybe_error he⟩
    · obtain ⟨p, hp, h⟩ := ih h
      exact ⟨p, List.mem_cons_of_mem _ hp, h⟩
    · split at h
      · rename_i e' he
        cases h
        obtain ⟨p, hp, h⟩ := ih he
        exact ⟨p, List.mem_cons_of_mem _ hp, h⟩
      · cases h

theorem pass_rest {b : Box} {dz : DangerZone} {ds rest : List (String × SecretDef)} {r r' : List (String × Bytes)}
    (h : pass b dz ds r = .ok (r', rest)) : ∀ p ∈ rest, p ∈ ds := by
  induction ds generalizing r r' rest with
  | nil => simp only [pass, Except.ok.injEq, Prod.mk.injEq] at h; rw [← h.2]; exact fun _ h => h
  | cons p ds ih =>
    obtain ⟨n, d⟩ := p
    simp only [pass] at h
    split at h
    · cases h
    · exact fun q hq => List.mem_cons_of_mem _ (ih h q hq)
    · split at h
      · cases h
      · rename_i h'
        simp only [Except.ok.injEq, Prod.mk.injEq] at h
        rw [← h.2]
        intro q hq
        rcases List.mem_cons.mp hq with rfl | hq
        · exact List.mem_cons_self
        · exact List.mem_cons_of_mem _ (ih h' q hq)

theorem loop_report (b : Box) (dz : DangerZone) (c : Nat) : ∀ (k : Nat) (ds : List (String × SecretDef)) (r : List (String × Bytes)) (e : Failure),
    ds.length ≤ k → resolveLoop b dz c ds r = .error e → e.report = circularReport ∨ ∃ p ∈ ds,
      e.report ∈ oneReports b.os ⟨p.1, whereOf p.2.source, p.2.base64, p.2.encryptedBy⟩ ∨ Quotes b p.1 p.2 e.report := by
  intro k
  induction k with
  | zero =>
    intro ds r e hl h
    have : ds = [] := List.length_eq_zero_iff.mp (by omega)
    subst this
    by_cases hc : r.length < c
    · rw [loop_ok hc (show pass b dz [] r = .ok (r, []) from rfl)] at h
      rw [if_pos rfl] at h
      cases h
      refine Or.inl ?_
      rw [bad_report (d := "142".toList) (by decide), circular_eq]
      simp
    · rw [resolveLoop, if_neg hc] at h; cases h
  | succ k ih =>
    intro ds r e hl h
    by_cases hc : r.length < c
    · cases hp : pass b dz ds r with
      | error e' =>
        rw [loop_error hc hp] at h
        cases h
        exact Or.inr (pass_error hp)
      | ok q =>
        obtain ⟨r', rest⟩ := q
        rw [loop_ok hc hp] at h
        split at h
        · cases h
          refine Or.inl ?_
          rw [bad_report (d := "142".toList) (by decide), circular_eq]
          simp
        · have := pass_length hp
          rcases ih rest r' e (by omega) h with h | ⟨p, hm, h⟩
          · exact Or.inl h
          · exact Or.inr ⟨p, pass_rest hp p hm, h⟩
    · rw [resolveLoop, if_neg hc] at h; cases h

theorem firstMissing_mem {defs ds : List (String × SecretDef)} {n k : String} (h : firstMissing defs ds = some (n, k)) :
    ∃ d, (n, d) ∈ ds ∧ d.encryptedBy = some k := by
  induction ds with
  | nil => cases h
  | cons p ds ih =>
    obtain ⟨n', d⟩ := p
    simp only [firstMissing] at h
    split at h
    · rename_i k' hk
      split at h
      · obtain ⟨d', hm, hk⟩ := ih h
        exact ⟨d', List.mem_cons_of_mem _ hm, hk⟩
      · cases h
        exact ⟨d, List.mem_cons_self, hk⟩
    · obtain ⟨d', hm, hk⟩ := ih h
      exact ⟨d', List.mem_cons_of_mem _ hm, hk⟩

theorem resolve_report {b : Box} {dz : DangerZone} {defs : List (String × SecretDef)} {e : Failure} (h : resolve b dz defs = .error e) :
    e.report = circularReport ∨ ∃ p ∈ defs,
      e.report ∈ oneReports b.os ⟨p.1, whereOf p.2.source, p.2.base64, p.2.encryptedBy⟩ ∨ Quotes b p.1 p.2 e.report := by
  unfold resolve at h
  split at h
  · rename_i n k hm
    cases h
    obtain ⟨d, hd, hk⟩ := firstMissing_mem hm
    refine Or.inr ⟨_, hd, Or.inl (List.mem_append_right _ (List.mem_append_right _ ?_))⟩
    simp only [hk, kekReports]
    rw [bad_report (d := "122".toList) (by decide)]
    exact List.mem_of_getElem? (i := 0) (by simp only [of_eq]; generalize chars n = nt; generalize chars k = kt; simp)
  · exact loop_report b dz _ _ defs [] e (Nat.le_refl _) h

theorem same_resolve (b : Box) (dz : DangerZone) (defs : List (String × SecretDef)) :
    Same (resolve b dz defs) (resolveSecrets b.world dz defs) := by
  unfold resolve resolveSecrets
  have : (firstMissing defs defs).isSome = missingRef defs := firstMissing_iff defs defs
  cases h : firstMissing defs defs with
  | none =>
    rw [h] at this
    rw [← this]
    exact same_loop b dz _ _ defs [] (Nat.le_refl _)
  | some q =>
    rw [h] at this
    rw [← this]
    rfl

end Verif.Report
