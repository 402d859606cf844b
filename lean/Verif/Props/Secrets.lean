import Verif.Spec.Secrets
import Verif.Props.Crypt

/-! # C45: secrets are resolved completely, whatever the order -/

namespace Verif.Config
open Verif

/-! ## Reading one secret -/

theorem asciiWs_white : asciiWs = white := by
  funext b
  rw [Bool.eq_iff_iff]
  simp [asciiWs, white, Bool.or_eq_true, decide_eq_true_eq, or_assoc]

theorem trimEnd_stripped (t : Bytes) : Stripped t (trimEnd t) := by
  rw [Stripped, ← asciiWs_white]
  refine ⟨(t.reverse.takeWhile asciiWs).reverse, ?_, ?_, ?_⟩
  · rw [trimEnd, ← List.reverse_append, List.takeWhile_append_dropWhile, List.reverse_reverse]
  · intro b hb
    rw [List.mem_reverse] at hb
    have key : ∀ l : Bytes, b ∈ l.takeWhile asciiWs → asciiWs b = true := by
      intro l
      induction l with
      | nil => intro h; cases h
      | cons x l ih =>
        intro h
        rw [List.takeWhile_cons] at h
        split at h
        · rcases List.mem_cons.mp h with rfl | h
          · assumption
          · exact ih h
        · cases h
    exact key _ hb
  · intro b hb
    rw [trimEnd, List.getLast?_reverse] at hb
    cases h : asciiWs b with
    | false => rfl
    | true =>
      have := List.head?_dropWhile_not asciiWs t.reverse
      rw [hb] at this
      simp [h] at this

theorem stripped_unique {t s s' : Bytes} (h : Stripped t s) (h' : Stripped t s') : s = s' := by
  obtain ⟨e, he, hw, hl⟩ := h
  obtain ⟨e', he', hw', hl'⟩ := h'
  have key : ∀ (s e s' e' : Bytes), s ++ e = s' ++ e' → (∀ b ∈ e', white b = true) →
      (∀ b, s.getLast? = some b → white b = false) → s.length ≤ s'.length := by
    intro s e s' e' h hw hl
    apply Nat.le_of_not_lt
    intro hlt
    have hs : s ≠ [] := by rintro rfl; simp at hlt
    obtain ⟨b, hb⟩ : ∃ b, s.getLast? = some b := ⟨s.getLast hs, List.getLast?_eq_some_getLast hs⟩
    have h1 : (s' ++ e')[s.length - 1]? = some b := by
      rw [← h, List.getElem?_append_left (by omega), ← List.getLast?_eq_getElem?, hb]
    rw [List.getElem?_append_right (by omega)] at h1
    have := hw b (List.mem_of_getElem? h1)
    rw [hl b hb] at this; cases this
  have h1 := key s e s' e' (by rw [← he, ← he']) hw' hl
  have h2 := key s' e' s e (by rw [← he, ← he']) hw hl'
  have := congrArg (List.take s.length) (he.symm.trans he')
  rwa [List.take_left' rfl, List.take_left' (by omega)] at this

theorem READ_LIMIT_eq : READ_LIMIT = 10929 := rfl

theorem loadSource_ok (w : World) (dz : DangerZone) (d : SecretDef) (t : Bytes) :
    loadSource w dz d.source d.encryptedBy.isSome = .ok t ↔ Allowed w dz d ∧ sourceText w d.source = some t := by
  unfold loadSource Allowed sourceText
  cases d.source with
  | file p =>
    simp only [loadFile]
    cases hf : w.file p with
    | none => simp
    | some f =>
      simp only [Option.some.injEq, Option.bind_some, forall_eq', READ_LIMIT_eq]
      cases hr : f.regular <;> cases he : dz.enabled <;> cases hg : dz.regularFile <;> cases hc : f.contents <;> simp
  | inline x =>
    simp only [loadInline]
    cases he : dz.enabled <;> cases hg : dz.inlinePlaintext <;> cases hk : d.encryptedBy <;> simp
  | env v =>
    simp only [loadEnv]
    cases he : dz.enabled <;> cases hg : dz.envSecrets <;> cases hv : w.env v <;> simp

theorem loadDecoded_ok (w : World) (dz : DangerZone) (d : SecretDef) (b : Bytes) :
    loadDecoded w dz d = .ok b ↔ Allowed w dz d ∧ AtSource w d b ∧ b.length ≤ 8192 := by
  unfold loadDecoded
  cases hl : loadSource w dz d.source d.encryptedBy.isSome with
  | error e =>
    constructor
    · intro h; cases h
    · rintro ⟨h1, ⟨t, h2, _⟩, _⟩
      rw [(loadSource_ok w dz d t).mpr ⟨h1, h2⟩] at hl; cases hl
  | ok t =>
    obtain ⟨ha, ht⟩ := (loadSource_ok w dz d t).mp hl
    have hsrc : AtSource w d b ↔ (d.base64 = false ∧ b = t ∨ d.base64 = true ∧ w.b64 (trimEnd t) = some b) := by
      unfold AtSource
      rw [ht]
      simp only [Option.some.injEq, exists_eq_left']
      constructor
      · rintro (h | ⟨h, s, hs, hb⟩)
        · exact Or.inl h
        · rw [stripped_unique hs (trimEnd_stripped t)] at hb; exact Or.inr ⟨h, hb⟩
      · rintro (h | ⟨h, hb⟩)
        · exact Or.inl h
        · exact Or.inr ⟨h, _, trimEnd_stripped t, hb⟩
    rw [hsrc]
    simp only [decode, ha, true_and]
    have hm : MAX_SECRET = 8192 := rfl
    cases hb : d.base64 with
    | false =>
      simp only [Bool.false_eq_true, if_false, true_and, false_and, or_false]
      by_cases hlen : t.length > MAX_SECRET
      · rw [if_pos hlen]
        constructor
        · intro h; cases h
        · rintro ⟨rfl, h⟩; omega
      · rw [if_neg hlen]
        constructor
        · intro h; cases h; exact ⟨rfl, by omega⟩
        · rintro ⟨rfl, _⟩; rfl
    | true =>
      simp only [if_true, Bool.true_eq_false, false_and, false_or, true_and]
      cases hd : w.b64 (trimEnd t) with
      | none => simp
      | some x =>
        simp only
        by_cases hlen : x.length > MAX_SECRET
        · rw [if_pos hlen]
          constructor
          · intro h; cases h
          · rintro ⟨h, h'⟩; cases h; omega
        · rw [if_neg hlen]
          constructor
          · intro h; cases h; exact ⟨rfl, by omega⟩
          · rintro ⟨h, _⟩; cases h; rfl

theorem gcmDecrypt_ok (g : Crypt.Aead) (key aad ct b : Bytes) :
    Crypt.gcmDecrypt g key aad ct = .ok b ↔ key.length = 32 ∧ 28 ≤ ct.length ∧ g.openAt key (ct.take 12) aad (ct.drop 12) = some b := by
  unfold Crypt.gcmDecrypt Crypt.newCipher
  by_cases h1 : key.length = 32
  · by_cases h2 : ct.length < 28
    · simp only [h1, if_true, true_and]
      constructor
      · intro h; simp [bind, Except.bind, h2, throw, throwThe, MonadExceptOf.throw] at h
      · rintro ⟨h, _⟩; omega
    · simp only [h1, if_true, true_and]
      cases ho : g.openAt key (ct.take 12) aad (ct.drop 12) with
      | none => simp [bind, Except.bind, h2, throw, throwThe, MonadExceptOf.throw, pure, Except.pure]
      | some x =>
        simp [bind, Except.bind, h2, pure, Except.pure]
        omega
  · simp only [h1, if_false, false_and, iff_false]
    simp [bind, Except.bind]

variable {w : World} {dz : DangerZone} {defs : List (String × SecretDef)}

theorem atSource_unique {d : SecretDef} {b b' : Bytes} (h : AtSource w d b) (h' : AtSource w d b') : b = b' := by
  obtain ⟨t, ht, h⟩ := h
  obtain ⟨t', ht', h'⟩ := h'
  rw [ht] at ht'; obtain rfl := Option.some.inj ht'
  rcases h with ⟨h1, rfl⟩ | ⟨h1, s, hs, hb⟩ <;> rcases h' with ⟨h1', rfl⟩ | ⟨h1', s', hs', hb'⟩
  · rfl
  · rw [h1] at h1'; cases h1'
  · rw [h1] at h1'; cases h1'
  · rw [stripped_unique hs hs', hb'] at hb; exact (Option.some.inj hb).symm

theorem def_unique (hn : (defs.map Prod.fst).Nodup) {n : String} {d d' : SecretDef} (h : (n, d) ∈ defs) (h' : (n, d') ∈ defs) : d = d' := by
  induction defs with
  | nil => cases h
  | cons p ds ih =>
    rw [List.map_cons, List.nodup_cons] at hn
    rcases List.mem_cons.mp h with rfl | g <;> rcases List.mem_cons.mp h' with g' | g'
    · cases g'; rfl
    · exact absurd (List.mem_map.mpr ⟨_, g', rfl⟩) hn.1
    · subst g'; exact absurd (List.mem_map.mpr ⟨_, g, rfl⟩) hn.1
    · exact ih hn.2 g g'

/-- A secret has at most one value. -/
theorem value_unique (hn : (defs.map Prod.fst).Nodup) {n : String} {b b' : Bytes} (h : SecretValue w dz defs n b)
    (h' : SecretValue w dz defs n b') : b = b' := by
  induction h generalizing b' with
  | plain h1 h2 _ h4 _ =>
    cases h' with
    | plain g1 g2 _ g4 _ => rw [def_unique hn h1 g1] at h4; exact atSource_unique h4 g4
    | wrapped g1 g2 _ _ _ _ _ _ _ => rw [def_unique hn h1 g1, g2] at h2; cases h2
  | wrapped h1 h2 _ _ h5 _ _ _ h9 ih =>
    cases h' with
    | plain g1 g2 _ g4 _ => rw [def_unique hn h1 g1, g2] at h2; cases h2
    | wrapped g1 g2 g3 _ g5 _ _ _ g9 =>
      have hd := def_unique hn h1 g1
      subst hd
      rw [h2] at g2; obtain rfl := Option.some.inj g2
      rw [ih g3, atSource_unique h5 g5, g9] at h9
      exact (Option.some.inj h9).symm

/-! ## The loop -/

/-- Resolved so far: values only. -/
def Sound (w : World) (dz : DangerZone) (defs : List (String × SecretDef)) (r : List (String × Bytes)) : Prop :=
  ∀ n b, (n, b) ∈ r → SecretValue w dz defs n b

theorem lookup_mem {r : List (String × Bytes)} {k : String} {b : Bytes} (h : r.lookup k = some b) : (k, b) ∈ r := by
  induction r with
  | nil => cases h
  | cons p r ih =>
    obtain ⟨n, x⟩ := p
    rw [List.lookup_cons] at h
    by_cases e : k = n
    · subst e; simp at h; subst h; exact List.mem_cons_self ..
    · rw [show (k == n) = false by simpa using e] at h; exact List.mem_cons_of_mem _ (ih h)

theorem lookup_none {r : List (String × Bytes)} {k : String} : r.lookup k = none ↔ k ∉ r.map Prod.fst := by
  induction r with
  | nil => simp
  | cons p r ih =>
    obtain ⟨n, x⟩ := p
    rw [List.lookup_cons, List.map_cons, List.mem_cons, not_or]
    by_cases e : k = n
    · subst e; simp
    · rw [show (k == n) = false by simpa using e]; simp [e, ih]

theorem maybeResolve_some {n : String} {d : SecretDef} {r : List (String × Bytes)} {b : Bytes} (hs : Sound w dz defs r)
    (hd : (n, d) ∈ defs) (h : maybeResolve w dz n d r = .ok (some b)) : SecretValue w dz defs n b := by
  unfold maybeResolve at h
  cases hk : d.encryptedBy with
  | some k =>
    rw [hk] at h
    simp only at h
    cases hl : r.lookup k with
    | none => rw [hl] at h; cases h
    | some kek =>
      rw [hl] at h
      simp only at h
      cases hld : loadDecoded w dz d with
      | error e => rw [hld] at h; cases h
      | ok ct =>
        rw [hld] at h
        simp only at h
        cases hg : Crypt.gcmDecrypt w.gcm kek (w.utf8 n) ct with
        | error e => rw [hg] at h; cases h
        | ok x =>
          rw [hg] at h
          cases h
          obtain ⟨h1, h2, h3⟩ := (loadDecoded_ok w dz d ct).mp hld
          obtain ⟨g1, g2, g3⟩ := (gcmDecrypt_ok ..).mp hg
          exact .wrapped hd hk (hs _ _ (lookup_mem hl)) h1 h2 h3 g1 g2 g3
  | none =>
    rw [hk] at h
    simp only at h
    cases hld : loadDecoded w dz d with
    | error e => rw [hld] at h; cases h
    | ok x =>
      rw [hld] at h
      cases h
      obtain ⟨h1, h2, h3⟩ := (loadDecoded_ok w dz d _).mp hld
      exact .plain hd hk h1 h2 h3

theorem maybeResolve_none {n : String} {d : SecretDef} {r : List (String × Bytes)} (h : maybeResolve w dz n d r = .ok none) :
    ∃ k, d.encryptedBy = some k ∧ k ∉ r.map Prod.fst := by
  unfold maybeResolve at h
  cases hk : d.encryptedBy with
  | some k =>
    refine ⟨k, rfl, ?_⟩
    rw [hk] at h
    simp only at h
    cases hl : r.lookup k with
    | none => exact lookup_none.mp hl
    | some kek =>
      rw [hl] at h
      simp only at h
      cases hld : loadDecoded w dz d with
      | error e => rw [hld] at h; cases h
      | ok ct =>
        rw [hld] at h
        simp only at h
        cases hg : Crypt.gcmDecrypt w.gcm kek (w.utf8 n) ct with
        | error e => rw [hg] at h; cases h
        | ok x => rw [hg] at h; cases h
  | none =>
    rw [hk] at h
    simp only at h
    cases hld : loadDecoded w dz d with
    | error e => rw [hld] at h; cases h
    | ok x => rw [hld] at h; cases h

/-- A secret that has a value cannot fail. -/
theorem maybeResolve_no_error (hn : (defs.map Prod.fst).Nodup) {n : String} {d : SecretDef} {r : List (String × Bytes)} {b : Bytes} {e : SErr}
    (hs : Sound w dz defs r) (hd : (n, d) ∈ defs) (hv : SecretValue w dz defs n b) : maybeResolve w dz n d r ≠ .error e := by
  intro h
  unfold maybeResolve at h
  cases hv with
  | plain h1 h2 h3 h4 h5 =>
    obtain rfl := def_unique hn h1 hd
    rw [h2] at h
    simp only at h
    rw [(loadDecoded_ok ..).mpr ⟨h3, h4, h5⟩] at h
    cases h
  | wrapped h1 h2 h3 h4 h5 h6 h7 h8 h9 =>
    obtain rfl := def_unique hn h1 hd
    rw [h2] at h
    simp only at h
    rename_i k _ kek ct
    cases hl : r.lookup k with
    | none => rw [hl] at h; cases h
    | some kek' =>
      have := value_unique hn h3 (hs _ _ (lookup_mem hl))
      subst this
      rw [hl] at h
      simp only at h
      rw [(loadDecoded_ok ..).mpr ⟨h4, h5, h6⟩] at h
      simp only at h
      rw [(gcmDecrypt_ok ..).mpr ⟨h7, h8, h9⟩] at h
      cases h

/-- One pass. -/
theorem pass_spec {ds rest : List (String × SecretDef)} {r r' : List (String × Bytes)} (hsub : ∀ p ∈ ds, p ∈ defs) (hs : Sound w dz defs r)
    (h : pass w dz ds r = .ok (r', rest)) :
    Sound w dz defs r' ∧ (∀ p ∈ rest, p ∈ ds) ∧ (ds.map Prod.fst ++ r.map Prod.fst).Perm (rest.map Prod.fst ++ r'.map Prod.fst) ∧
      (rest.length = ds.length → ∀ p ∈ ds, ∃ k, p.2.encryptedBy = some k ∧ k ∉ r.map Prod.fst) := by
  induction ds generalizing r r' rest with
  | nil =>
    simp only [pass, Except.ok.injEq, Prod.mk.injEq] at h
    obtain ⟨rfl, rfl⟩ := h
    exact ⟨hs, fun p h => h, List.Perm.refl _, fun _ p h => (nomatch h)⟩
  | cons p ds ih =>
    obtain ⟨n, d⟩ := p
    have hd := hsub _ (List.mem_cons_self ..)
    have hsub' : ∀ p ∈ ds, p ∈ defs := fun p hp => hsub p (List.mem_cons_of_mem _ hp)
    simp only [pass] at h
    cases hm : maybeResolve w dz n d r with
    | error e => rw [hm] at h; cases h
    | ok o =>
      rw [hm] at h
      cases o with
      | some b =>
        simp only at h
        have hs' : Sound w dz defs ((n, b) :: r) := by
          intro n' b' hm'
          rcases List.mem_cons.mp hm' with e | hm'
          · cases e; exact maybeResolve_some hs hd hm
          · exact hs _ _ hm'
        obtain ⟨i1, i2, i3, _⟩ := ih hsub' hs' h
        refine ⟨i1, fun p hp => List.mem_cons_of_mem _ (i2 p hp), ?_, ?_⟩
        · refine List.Perm.trans ?_ i3
          simp only [List.map_cons, List.cons_append]
          exact List.perm_middle.symm
        · intro hl
          have := pass_length h
          simp only [List.length_cons] at hl
          omega
      | none =>
        simp only at h
        cases hp : pass w dz ds r with
        | error e => rw [hp] at h; cases h
        | ok x =>
          obtain ⟨r1, rest1⟩ := x
          rw [hp] at h
          simp only [Except.ok.injEq, Prod.mk.injEq] at h
          obtain ⟨rfl, rfl⟩ := h
          obtain ⟨i1, i2, i3, i4⟩ := ih hsub' hs hp
          refine ⟨i1, ?_, ?_, ?_⟩
          · intro p hp
            rcases List.mem_cons.mp hp with rfl | hp
            · exact List.mem_cons_self ..
            · exact List.mem_cons_of_mem _ (i2 p hp)
          · simp only [List.map_cons, List.cons_append]
            exact i3.cons _
          · intro hl
            simp only [List.length_cons, Nat.add_right_cancel_iff] at hl
            exact List.forall_mem_cons.mpr ⟨maybeResolve_none hm, i4 hl⟩

theorem pass_no_error (hn : (defs.map Prod.fst).Nodup) (hall : ∀ p ∈ defs, ∃ b, SecretValue w dz defs p.1 b)
    {ds : List (String × SecretDef)} {r : List (String × Bytes)} (hsub : ∀ p ∈ ds, p ∈ defs) (hs : Sound w dz defs r) :
    ∃ x, pass w dz ds r = .ok x := by
  induction ds generalizing r with
  | nil => exact ⟨_, rfl⟩
  | cons p ds ih =>
    obtain ⟨n, d⟩ := p
    have hd := hsub _ (List.mem_cons_self ..)
    have hsub' : ∀ p ∈ ds, p ∈ defs := fun p hp => hsub p (List.mem_cons_of_mem _ hp)
    simp only [pass]
    cases hm : maybeResolve w dz n d r with
    | error e => obtain ⟨b, hb⟩ := hall _ hd; exact absurd hm (maybeResolve_no_error hn hs hd hb)
    | ok o =>
      cases o with
      | some b =>
        simp only
        apply ih hsub'
        intro n' b' hm'
        rcases List.mem_cons.mp hm' with e | hm'
        · cases e; exact maybeResolve_some hs hd hm
        · exact hs _ _ hm'
      | none =>
        simp only
        obtain ⟨x, hx⟩ := ih hsub' hs
        rw [hx]
        exact ⟨_, rfl⟩

/-- Without progress something is circular (or missing): a secret with a value has a key that is resolved earlier. -/
theorem progress {ds : List (String × SecretDef)} {r : List (String × Bytes)} (hn : (defs.map Prod.fst).Nodup)
    (hperm : (ds.map Prod.fst ++ r.map Prod.fst).Perm (defs.map Prod.fst)) (hsub : ∀ p ∈ ds, p ∈ defs)
    (hstuck : ∀ p ∈ ds, ∃ k, p.2.encryptedBy = some k ∧ k ∉ r.map Prod.fst) {n : String} {b : Bytes} (hv : SecretValue w dz defs n b) :
    n ∉ ds.map Prod.fst := by
  induction hv with
  | plain h1 h2 _ _ _ =>
    intro hm
    obtain ⟨⟨n', d'⟩, hp, rfl⟩ := List.mem_map.mp hm
    obtain ⟨k, hk, _⟩ := hstuck _ hp
    rw [def_unique hn h1 (hsub _ hp)] at h2
    rw [h2] at hk; cases hk
  | @wrapped _ k0 _ _ _ _ h1 h2 h3 _ _ _ _ _ _ ih =>
    intro hm
    obtain ⟨⟨n', d'⟩, hp, rfl⟩ := List.mem_map.mp hm
    obtain ⟨k, hk, hkr⟩ := hstuck _ hp
    rw [def_unique hn h1 (hsub _ hp), hk] at h2
    obtain rfl := Option.some.inj h2
    have hin : k ∈ defs.map Prod.fst := by
      cases h3 with
      | plain g1 _ _ _ _ => exact List.mem_map.mpr ⟨_, g1, rfl⟩
      | wrapped g1 _ _ _ _ _ _ _ _ => exact List.mem_map.mpr ⟨_, g1, rfl⟩
    rcases List.mem_append.mp (hperm.mem_iff.mpr hin) with h | h
    · exact ih h
    · exact hkr h

theorem loop_spec (hn : (defs.map Prod.fst).Nodup) (k : Nat) : ∀ (ds : List (String × SecretDef)) (r : List (String × Bytes)),
    ds.length = k → (∀ p ∈ ds, p ∈ defs) → Sound w dz defs r → (ds.map Prod.fst ++ r.map Prod.fst).Perm (defs.map Prod.fst) →
    ((∀ p ∈ defs, ∃ b, SecretValue w dz defs p.1 b) → ∃ m, resolveLoop w dz defs.length ds r = .ok m) ∧
    ∀ m, resolveLoop w dz defs.length ds r = .ok m → Sound w dz defs m ∧ (m.map Prod.fst).Perm (defs.map Prod.fst) := by
  induction k using Nat.strongRecOn with
  | ind k ih =>
    intro ds r hk hsub hs hperm
    have hlen := hperm.length_eq
    simp only [List.length_append, List.length_map] at hlen
    unfold resolveLoop
    by_cases hc : r.length < defs.length
    · rw [if_pos hc]
      have hcont : ∀ r' rest, pass w dz ds r = .ok (r', rest) → rest.length ≠ ds.length →
          ((∀ p ∈ defs, ∃ b, SecretValue w dz defs p.1 b) → ∃ m, resolveLoop w dz defs.length rest r' = .ok m) ∧
          ∀ m, resolveLoop w dz defs.length rest r' = .ok m → Sound w dz defs m ∧ (m.map Prod.fst).Perm (defs.map Prod.fst) := by
        intro r' rest hp hne
        obtain ⟨i1, i2, i3, _⟩ := pass_spec hsub hs hp
        have := pass_length hp
        exact ih rest.length (by omega) rest r' rfl (fun p h => hsub p (i2 p h)) i1 (i3.symm.trans hperm)
      constructor
      · intro hall
        obtain ⟨⟨r', rest⟩, hp⟩ := pass_no_error hn hall hsub hs
        have hne : rest.length ≠ ds.length := by
          intro he
          obtain ⟨_, _, _, i4⟩ := pass_spec hsub hs hp
          have hne : ds ≠ [] := by rintro rfl; simp at hlen; omega
          obtain ⟨p, ps, rfl⟩ := List.exists_cons_of_ne_nil hne
          obtain ⟨b, hb⟩ := hall p (hsub p (List.mem_cons_self ..))
          exact progress hn hperm hsub (i4 he) hb (by simp)
        split
        · rename_i h; rw [hp] at h; cases h
        · rename_i r2 rest2 h
          rw [hp] at h; cases h
          rw [if_neg hne]
          exact (hcont _ _ hp hne).1 hall
      · intro m hm
        split at hm
        · cases hm
        · rename_i r2 rest2 h
          split at hm
          · cases hm
          · rename_i hne; exact (hcont _ _ h hne).2 m hm
    · rw [if_neg hc]
      refine ⟨fun _ => ⟨r, rfl⟩, ?_⟩
      intro m hm
      cases hm
      have : ds = [] := List.length_eq_zero_iff.mp (by omega)
      subst this
      exact ⟨hs, hperm⟩

/-! ## C45 -/

theorem missing_iff (defs : List (String × SecretDef)) :
    missingRef defs = true ↔ ∃ n d k, (n, d) ∈ defs ∧ d.encryptedBy = some k ∧ k ∉ defs.map Prod.fst := by
  rw [missingRef, List.any_eq_true]
  constructor
  · rintro ⟨⟨n, d⟩, hp, h⟩
    simp only at h
    cases hk : d.encryptedBy with
    | none => rw [hk] at h; cases h
    | some k =>
      rw [hk] at h
      refine ⟨n, d, k, hp, hk, ?_⟩
      intro hm
      obtain ⟨q, hq, rfl⟩ := List.mem_map.mp hm
      simp only [Bool.not_eq_true', List.any_eq_false, decide_eq_true_eq] at h
      exact h q hq rfl
  · rintro ⟨n, d, k, hp, hk, hm⟩
    refine ⟨(n, d), hp, ?_⟩
    simp only [hk, Bool.not_eq_true', List.any_eq_false, decide_eq_true_eq]
    intro q hq e
    exact hm (List.mem_map.mpr ⟨q, hq, e⟩)

/-- C45, what is resolved: if resolving succeeds, every secret defined is there, and nothing else, each with its value, that
is, read from its own source and decrypted with the value of its own key-encryption secret. -/
theorem C45_values (hn : (defs.map Prod.fst).Nodup) {m : List (String × Bytes)} (h : resolveSecrets w dz defs = .ok m) :
    (∀ n b, m.lookup n = some b ↔ SecretValue w dz defs n b) ∧ (m.map Prod.fst).Perm (defs.map Prod.fst) := by
  unfold resolveSecrets at h
  split at h
  · cases h
  · obtain ⟨h1, h2⟩ := (loop_spec hn _ defs [] rfl (fun p h => h) (fun n b h => (nomatch h)) (by simp)).2 m h
    refine ⟨?_, h2⟩
    intro n b
    constructor
    · intro hl; exact h1 _ _ (lookup_mem hl)
    · intro hv
      cases hl : m.lookup n with
      | some b' => rw [value_unique hn (h1 _ _ (lookup_mem hl)) hv]
      | none =>
        have hin : n ∈ defs.map Prod.fst := by
          cases hv with
          | plain g1 _ _ _ _ => exact List.mem_map.mpr ⟨_, g1, rfl⟩
          | wrapped g1 _ _ _ _ _ _ _ _ => exact List.mem_map.mpr ⟨_, g1, rfl⟩
        exact absurd (h2.mem_iff.mpr hin) (lookup_none.mp hl)

/-- C45, when resolving succeeds: exactly if every secret has a value. -/
theorem C45_succeeds_iff (hn : (defs.map Prod.fst).Nodup) :
    (∃ m, resolveSecrets w dz defs = .ok m) ↔ ∀ n ∈ defs.map Prod.fst, ∃ b, SecretValue w dz defs n b := by
  constructor
  · rintro ⟨m, h⟩ n hin
    obtain ⟨h1, h2⟩ := C45_values hn h
    cases hl : m.lookup n with
    | some b => exact ⟨b, (h1 n b).mp hl⟩
    | none => exact absurd (h2.mem_iff.mpr hin) (lookup_none.mp hl)
  · intro hall
    unfold resolveSecrets
    rw [if_neg]
    · exact (loop_spec hn _ defs [] rfl (fun p h => h) (fun n b h => (nomatch h)) (by simp)).1
        (fun p hp => hall p.1 (List.mem_map.mpr ⟨p, hp, rfl⟩))
    · intro hmiss
      obtain ⟨n, d, k, hp, hk, hm⟩ := (missing_iff defs).mp hmiss
      obtain ⟨b, hv⟩ := hall n (List.mem_map.mpr ⟨_, hp, rfl⟩)
      cases hv with
      | plain g1 g2 _ _ _ => rw [def_unique hn g1 hp, hk] at g2; cases g2
      | wrapped g1 g2 g3 _ _ _ _ _ _ =>
        rw [def_unique hn g1 hp, hk] at g2
        obtain rfl := Option.some.inj g2
        cases g3 with
        | plain g1 _ _ _ _ => exact hm (List.mem_map.mpr ⟨_, g1, rfl⟩)
        | wrapped g1 _ _ _ _ _ _ _ _ => exact hm (List.mem_map.mpr ⟨_, g1, rfl⟩)

theorem value_perm {defs' : List (String × SecretDef)} (hp : defs.Perm defs') {n : String} {b : Bytes} (h : SecretValue w dz defs n b) :
    SecretValue w dz defs' n b := by
  induction h with
  | plain h1 h2 h3 h4 h5 => exact .plain (hp.mem_iff.mp h1) h2 h3 h4 h5
  | wrapped h1 h2 _ h4 h5 h6 h7 h8 h9 ih => exact .wrapped (hp.mem_iff.mp h1) h2 ih h4 h5 h6 h7 h8 h9

/-- C45, order: for any other iteration order resolving succeeds as well, with the same values. -/
theorem C45_order (hn : (defs.map Prod.fst).Nodup) {defs' : List (String × SecretDef)} (hp : defs.Perm defs') {m : List (String × Bytes)}
    (h : resolveSecrets w dz defs = .ok m) : ∃ m', resolveSecrets w dz defs' = .ok m' ∧ ∀ n, m'.lookup n = m.lookup n := by
  have hn' : (defs'.map Prod.fst).Nodup := (hp.map _).nodup_iff.mp hn
  obtain ⟨m', hm'⟩ := (C45_succeeds_iff (w := w) (dz := dz) hn').mpr (fun n hin => by
    obtain ⟨b, hb⟩ := (C45_succeeds_iff hn).mp ⟨m, h⟩ n ((hp.map Prod.fst).mem_iff.mpr hin)
    exact ⟨b, value_perm hp hb⟩)
  refine ⟨m', hm', fun n => Option.ext fun b => ?_⟩
  rw [(C45_values hn' hm').1, (C45_values hn h).1]
  exact ⟨value_perm hp.symm, value_perm hp⟩

/-- C45: a reference to a secret that is not defined is reported. -/
theorem C45_missing_reported {n k : String} {d : SecretDef} (hd : (n, d) ∈ defs) (hk : d.encryptedBy = some k) (hm : k ∉ defs.map Prod.fst) :
    resolveSecrets w dz defs = .error .missingKek := by
  unfold resolveSecrets
  rw [if_pos ((missing_iff defs).mpr ⟨n, d, k, hd, hk, hm⟩)]

theorem value_chain (hn : (defs.map Prod.fst).Nodup) {n k : String} {b : Bytes} (hv : SecretValue w dz defs n b) (hc : EncryptedBy defs n k) :
    EncryptedBy defs k k → False := by
  induction hv generalizing k with
  | plain h1 h2 _ _ _ =>
    cases hc with
    | direct g1 g2 => rw [def_unique hn h1 g1, g2] at h2; cases h2
    | step g1 g2 _ => rw [def_unique hn h1 g1, g2] at h2; cases h2
  | wrapped h1 h2 _ _ _ _ _ _ _ ih =>
    intro hkk
    cases hc with
    | direct g1 g2 =>
      rw [def_unique hn h1 g1, g2] at h2; obtain rfl := Option.some.inj h2
      exact ih hkk hkk
    | step g1 g2 g3 =>
      rw [def_unique hn h1 g1, g2] at h2; obtain rfl := Option.some.inj h2
      exact ih g3 hkk

/-- C45: a secret that is encrypted by itself, through any number of others, is reported. -/
theorem C45_cycle_reported (hn : (defs.map Prod.fst).Nodup) {n : String} (hc : EncryptedBy defs n n) :
    ∃ e, resolveSecrets w dz defs = .error e := by
  cases h : resolveSecrets w dz defs with
  | error e => exact ⟨e, rfl⟩
  | ok m =>
    have hin : n ∈ defs.map Prod.fst := by
      cases hc with
      | direct g1 _ => exact List.mem_map.mpr ⟨_, g1, rfl⟩
      | step g1 _ _ => exact List.mem_map.mpr ⟨_, g1, rfl⟩
    obtain ⟨b, hb⟩ := (C45_succeeds_iff hn).mp ⟨m, h⟩ n hin
    exact (value_chain hn hb hc hc).elim

/-! ## C57: secrets are not cut -/

/-- C57, part: a plain secret from a file is the whole file, however long; a longer file than 8192 bytes is refused. -/
theorem C57_plain_whole_file (hn : (defs.map Prod.fst).Nodup) {m : List (String × Bytes)} (h : resolveSecrets w dz defs = .ok m) {n : String}
    {d : SecretDef} {p : List Char} {f : SecretFile} {c b : Bytes} (hd : (n, d) ∈ defs) (hsrc : d.source = .file p) (hplain : d.base64 = false)
    (hk : d.encryptedBy = none) (hf : w.file p = some f) (hc : f.contents = some c) (hb : m.lookup n = some b) : b = c ∧ c.length ≤ 8192 := by
  have hv := ((C45_values hn h).1 n b).mp hb
  cases hv with
  | wrapped g1 g2 _ _ _ _ _ _ _ => rw [def_unique hn g1 hd, hk] at g2; cases g2
  | plain g1 _ _ g4 g5 =>
    rw [def_unique hn g1 hd] at g4
    obtain ⟨t, ht, h'⟩ := g4
    rw [hsrc] at ht
    simp only [sourceText, hf, Option.bind_some, hc, Option.map_some, Option.some.injEq] at ht
    rcases h' with ⟨_, rfl⟩ | ⟨h', _⟩
    · subst ht
      rw [List.length_take] at g5
      have : c.length ≤ 8192 := by omega
      exact ⟨List.take_of_length_le (by omega), this⟩
    · rw [hplain] at h'; cases h'

/-- C57, part: base64 text from a file no longer than 10929 bytes is decoded whole. -/
theorem C57_base64_whole_file_partial (hn : (defs.map Prod.fst).Nodup) {m : List (String × Bytes)} (h : resolveSecrets w dz defs = .ok m) {n : String}
    {d : SecretDef} {p : List Char} {f : SecretFile} {c s b : Bytes} (hd : (n, d) ∈ defs) (hsrc : d.source = .file p) (hb64 : d.base64 = true)
    (hk : d.encryptedBy = none) (hf : w.file p = some f) (hc : f.contents = some c) (hlen : c.length ≤ 10929) (hs : Stripped c s)
    (hb : m.lookup n = some b) : w.b64 s = some b := by
  have hv := ((C45_values hn h).1 n b).mp hb
  cases hv with
  | wrapped g1 g2 _ _ _ _ _ _ _ => rw [def_unique hn g1 hd, hk] at g2; cases g2
  | plain g1 _ _ g4 g5 =>
    rw [def_unique hn g1 hd] at g4
    obtain ⟨t, ht, h'⟩ := g4
    rw [hsrc] at ht
    simp only [sourceText, hf, Option.bind_some, hc, Option.map_some, Option.some.injEq] at ht
    rcases h' with ⟨h', _⟩ | ⟨_, s', hs', hb'⟩
    · rw [hb64] at h'; cases h'
    · rw [List.take_of_length_le hlen] at ht
      subst ht
      rwa [stripped_unique hs hs']

/-- C57 is false in general: in a base64 file whose text is followed by enough white space, anything after the first 10929
bytes is dropped without an error, even if it is not white space. -/
theorem C57_base64_rest_dropped (w : World) (dz : DangerZone) (p : List Char) (s b x : Bytes) (hs : s.length ≤ 10929)
    (hl : ∀ y, s.getLast? = some y → white y = false) (hb : w.b64 s = some b) (hlen : b.length ≤ 8192)
    (hf : w.file p = some ⟨false, some (s ++ (List.replicate (10929 - s.length) 32 ++ x))⟩) :
    ∃ m, resolveSecrets w dz [("k", ⟨.file p, true, none⟩)] = .ok m ∧ m.lookup "k" = some b := by
  have hv : SecretValue w dz [("k", ⟨.file p, true, none⟩)] "k" b := by
    refine .plain (d := ⟨.file p, true, none⟩) (List.mem_singleton.mpr rfl) rfl ?_ ?_ hlen
    · intro f h' hr
      rw [hf] at h'; cases h'; cases hr
    · refine ⟨s ++ List.replicate (10929 - s.length) 32, ?_, Or.inr ⟨rfl, s, ⟨List.replicate (10929 - s.length) 32, rfl, ?_, hl⟩, hb⟩⟩
      · simp only [sourceText, hf, Option.bind_some, Option.map_some, Option.some.injEq]
        rw [← List.append_assoc, List.take_left']
        simp; omega
      · intro y hy
        rw [List.eq_of_mem_replicate hy]; rfl
  obtain ⟨m, hm⟩ := (C45_succeeds_iff (w := w) (dz := dz) (defs := [("k", ⟨.file p, true, none⟩)]) (by simp)).mpr (by
    intro n hn
    simp only [List.map_cons, List.map_nil, List.mem_singleton] at hn
    subst hn
    exact ⟨b, hv⟩)
  exact ⟨m, hm, ((C45_values (by simp) hm).1 _ _).mpr hv⟩

/-! ## Examples -/

/-- A world with one pipe holding a 32-byte key. -/
def demoWorld : World where
  file p := if p = ['k'] then some ⟨false, some (zeros 32)⟩ else none
  env _ := none
  b64 t := some t
  gcm := Crypt.toyAead
  utf8 _ := [1]

/-- Two secrets; the one listed first is encrypted by the other. -/
def demoDefs : List (String × SecretDef) :=
  [("key", ⟨.inline (zeros 12 ++ ([7, 8] ++ zeros 16)), false, some "kek"⟩), ("kek", ⟨.file ['k'], false, none⟩)]

theorem demo_kek : SecretValue demoWorld .off demoDefs "kek" (zeros 32) :=
  .plain (d := ⟨.file ['k'], false, none⟩) (by simp [demoDefs]) rfl (by simp [Allowed, demoWorld])
    ⟨zeros 32, by simp [sourceText, demoWorld, List.take_of_length_le], Or.inl ⟨rfl, rfl⟩⟩ (by simp)

theorem demo_key : SecretValue demoWorld .off demoDefs "key" [7, 8] :=
  .wrapped (d := ⟨.inline (zeros 12 ++ ([7, 8] ++ zeros 16)), false, some "kek"⟩) (by simp [demoDefs]) rfl demo_kek (by simp [Allowed])
    ⟨_, rfl, Or.inl ⟨rfl, rfl⟩⟩ (by simp) (by simp) (by simp) (by simp [demoWorld, Crypt.toyAead])

/-- C45: two secrets in an order that needs two passes resolve without any switch. -/
example : ∃ m, resolveSecrets demoWorld .off demoDefs = .ok m ∧ m.lookup "key" = some [7, 8] ∧ m.lookup "kek" = some (zeros 32) := by
  have hn : (demoDefs.map Prod.fst).Nodup := by simp [demoDefs]
  obtain ⟨m, hm⟩ := (C45_succeeds_iff (w := demoWorld) (dz := .off) hn).mpr (by
    intro n hn
    simp only [demoDefs, List.map_cons, List.map_nil, List.mem_cons, List.not_mem_nil, or_false] at hn
    rcases hn with rfl | rfl
    · exact ⟨_, demo_key⟩
    · exact ⟨_, demo_kek⟩)
  exact ⟨m, hm, ((C45_values hn hm).1 _ _).mpr demo_key, ((C45_values hn hm).1 _ _).mpr demo_kek⟩

/-- C45: a cycle through two secrets is an error. -/
example : ∃ e, resolveSecrets demoWorld .off [("a", ⟨.inline [], false, some "b"⟩), ("b", ⟨.inline [], false, some "a"⟩)] = .error e :=
  C45_cycle_reported (by simp) (n := "a")
    (.step (d := ⟨.inline [], false, some "b"⟩) (by simp) rfl (.direct (d := ⟨.inline [], false, some "a"⟩) (by simp) rfl))

/-- C57: text, white space, and other text behind it. -/
example : ∃ (w : World) (x : Bytes), x.any (fun b => !white b) = true ∧
    w.file ['k'] = some ⟨false, some ([65] ++ (List.replicate (10929 - 1) 32 ++ x))⟩ ∧ w.b64 [65] = some [65] :=
  ⟨{ demoWorld with file := fun _ => some ⟨false, some ([65] ++ (List.replicate (10929 - 1) 32 ++ [66]))⟩ }, [66], rfl, rfl, rfl⟩

end Verif.Config
