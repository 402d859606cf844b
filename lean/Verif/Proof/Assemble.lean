import Verif.Spec.Assemble

/-! # Runs of the programs of Model/Assemble -/

namespace Verif.Assemble
open Verif Verif.Config Verif.Metadata

variable {α β : Type}

theorem run_done {r r' : Except Err α} {l : Log} : Run (.done r) l r' ↔ l = [] ∧ r' = r := by
  constructor
  · intro h; cases h; exact ⟨rfl, rfl⟩
  · rintro ⟨rfl, rfl⟩; exact .done _

theorem run_pure {a : α} {l : Log} {r : Except Err α} : Run (pure a : Prog α) l r ↔ l = [] ∧ r = .ok a := run_done

theorem run_fail {e : Err} {l : Log} {r : Except Err α} : Run (fail e : Prog α) l r ↔ l = [] ∧ r = .error e := run_done

theorem run_ask {a : Act} {l : Log} {r : Except Err a.Ans} :
    Run (ask a) l r ↔ (∃ x, l = [⟨a, some x⟩] ∧ r = .ok x) ∨ (l = [⟨a, none⟩] ∧ r = .error (.outside a)) := by
  constructor
  · intro h
    cases h with
    | ask _ _ x l r h =>
      cases x with
      | none => obtain ⟨rfl, rfl⟩ := run_done.mp h; exact Or.inr ⟨rfl, rfl⟩
      | some x => obtain ⟨rfl, rfl⟩ := run_done.mp h; exact Or.inl ⟨x, rfl, rfl⟩
  · rintro (⟨x, rfl, rfl⟩ | ⟨rfl, rfl⟩)
    · exact .ask _ _ (some x) _ _ (.done _)
    · exact .ask _ _ none _ _ (.done _)

theorem run_bind {p : Prog α} {f : α → Prog β} {l : Log} {r : Except Err β} :
    Run (p >>= f) l r ↔
      (∃ l₁ l₂ a, l = l₁ ++ l₂ ∧ Run p l₁ (.ok a) ∧ Run (f a) l₂ r) ∨ (∃ e, Run p l (.error e) ∧ r = .error e) := by
  show Run (Prog.bind p f) l r ↔ _
  induction p generalizing l with
  | done q =>
    cases q with
    | ok a =>
      show Run (f a) l r ↔ _
      simp only [run_done]
      constructor
      · intro h; exact Or.inl ⟨[], l, a, rfl, ⟨rfl, rfl⟩, h⟩
      · rintro (⟨l₁, l₂, b, rfl, ⟨rfl, hb⟩, h⟩ | ⟨e, ⟨_, he⟩, _⟩)
        · cases hb; exact h
        · cases he
    | error e =>
      show Run (.done (.error e)) l r ↔ _
      simp only [run_done]
      constructor
      · rintro ⟨rfl, rfl⟩; exact Or.inr ⟨e, ⟨rfl, rfl⟩, rfl⟩
      · rintro (⟨l₁, l₂, b, rfl, ⟨rfl, hb⟩, h⟩ | ⟨e', ⟨rfl, he⟩, rfl⟩)
        · cases hb
        · cases he; exact ⟨rfl, rfl⟩
  | ask a next ih =>
    show Run (.ask a fun x => (next x).bind f) l r ↔ _
    constructor
    · intro h
      cases h with
      | ask _ _ x l r h =>
        rcases (ih x).mp h with ⟨l₁, l₂, b, rfl, h1, h2⟩ | ⟨e, h1, rfl⟩
        · exact Or.inl ⟨⟨a, x⟩ :: l₁, l₂, b, rfl, .ask _ _ x _ _ h1, h2⟩
        · exact Or.inr ⟨e, .ask _ _ x _ _ h1, rfl⟩
    · rintro (⟨l₁, l₂, b, rfl, h1, h2⟩ | ⟨e, h1, rfl⟩)
      · cases h1 with
        | ask _ _ x l r h1 => exact .ask _ _ x _ _ ((ih x).mpr (Or.inl ⟨l, l₂, b, rfl, h1, h2⟩))
      · cases h1 with
        | ask _ _ x l r h1 => exact .ask _ _ x _ _ ((ih x).mpr (Or.inr ⟨e, h1, rfl⟩))

/-- Everything asked satisfies `P`, results satisfy `Q`, errors satisfy `E`. -/
def Tri (P : Act → Prop) (Q : α → Prop) (E : Err → Prop) (p : Prog α) : Prop :=
  ∀ l r, Run p l r → (∀ x ∈ l, P x.1) ∧ (match r with | .ok a => Q a | .error e => E e)

theorem tri_pure {P : Act → Prop} {Q : α → Prop} {E : Err → Prop} {a : α} (h : Q a) : Tri P Q E (pure a) := by
  intro l r hr
  obtain ⟨rfl, rfl⟩ := run_pure.mp hr
  exact ⟨fun _ hx => absurd hx List.not_mem_nil, h⟩

theorem tri_fail {P : Act → Prop} {Q : α → Prop} {E : Err → Prop} {e : Err} (h : E e) : Tri P Q E (fail e : Prog α) := by
  intro l r hr
  obtain ⟨rfl, rfl⟩ := run_fail.mp hr
  exact ⟨fun _ hx => absurd hx List.not_mem_nil, h⟩

theorem tri_ask {P : Act → Prop} {E : Err → Prop} {a : Act} (h : P a) (he : E (.outside a)) : Tri P (fun _ => True) E (ask a) := by
  intro l r hr
  rcases run_ask.mp hr with ⟨x, rfl, rfl⟩ | ⟨rfl, rfl⟩
  · exact ⟨fun y hy => by rcases List.mem_singleton.mp hy with rfl; exact h, trivial⟩
  · exact ⟨fun y hy => by rcases List.mem_singleton.mp hy with rfl; exact h, he⟩

theorem tri_bind {P : Act → Prop} {Q : α → Prop} {R : β → Prop} {E : Err → Prop} {p : Prog α} {f : α → Prog β}
    (hp : Tri P Q E p) (hf : ∀ a, Q a → Tri P R E (f a)) : Tri P R E (p >>= f) := by
  intro l r hr
  rcases run_bind.mp hr with ⟨l₁, l₂, a, rfl, h1, h2⟩ | ⟨e, h1, rfl⟩
  · obtain ⟨p1, q1⟩ := hp _ _ h1
    obtain ⟨p2, q2⟩ := hf a q1 _ _ h2
    refine ⟨fun x hx => ?_, q2⟩
    rcases List.mem_append.mp hx with hx | hx
    · exact p1 x hx
    · exact p2 x hx
  · exact hp _ _ h1

theorem tri_mono {P P' : Act → Prop} {Q Q' : α → Prop} {E E' : Err → Prop} {p : Prog α} (h : Tri P Q E p)
    (hP : ∀ a, P a → P' a) (hQ : ∀ a, Q a → Q' a) (hE : ∀ e, E e → E' e) : Tri P' Q' E' p := by
  intro l r hr
  obtain ⟨h1, h2⟩ := h l r hr
  refine ⟨fun x hx => hP _ (h1 x hx), ?_⟩
  cases r with
  | ok a => exact hQ _ h2
  | error e => exact hE _ h2

theorem tri_and {P P' : Act → Prop} {Q Q' : α → Prop} {E E' : Err → Prop} {p : Prog α} (h : Tri P Q E p) (h' : Tri P' Q' E' p) :
    Tri (fun a => P a ∧ P' a) (fun a => Q a ∧ Q' a) (fun e => E e ∧ E' e) p := by
  intro l r hr
  obtain ⟨h1, h2⟩ := h l r hr
  obtain ⟨h1', h2'⟩ := h' l r hr
  refine ⟨fun x hx => ⟨h1 x hx, h1' x hx⟩, ?_⟩
  cases r with
  | ok a => exact ⟨h2, h2'⟩
  | error e => exact ⟨h2, h2'⟩

/-! ## The parts -/

/-- Errors that are not those of a configuration with missing or malformed secrets. -/
def Fine : Err → Prop
  | .missingSecret | .badKey | .panic => False
  | _ => True

/-- The condition on the actions of a program that none of the parts breaks by itself. -/
structure Closed (P : Act → Prop) (t : Text) (c : Config) : Prop where
  image : ∀ p a b, c.source = some (.raw p a b) → P (.openFile ⟨p, true, true, c.tuning.sync, c.tuning.writeThrough, 64⟩)
  dir : ∀ p k a, c.source = some (.archive (.filesystem p k a)) → P (.makeDir p)
  client : ∀ st s, c.source = some (.archive st) → StoreOf t c.secrets st s → P (.startClient s)
  archive : ∀ st s k, c.source = some (.archive st) → StoreOf t c.secrets st s → KekOf c.secrets (kekName st) k → P (.readArchive s k)
  dial : ∀ r d, c.source = some (.remote r) → DialOf c.secrets r d → P (.dial d)

theorem tri_secret {P : Act → Prop} {E : Err → Prop} {secrets : List (String × Bytes)} {n : String}
    (hE : secrets.lookup n = none → E .missingSecret) : Tri P (fun b => secrets.lookup n = some b) E (secret secrets n) := by
  unfold secret
  cases h : secrets.lookup n with
  | none => exact tri_fail (hE h)
  | some b => exact tri_pure rfl

/-- The encryption section can be used. -/
def EncOk (c : Config) : Prop := ∀ n, c.encryption = some n → ∃ k, c.secrets.lookup n = some k ∧ k.length = 64

theorem tri_xtsKeys {P : Act → Prop} {E : Err → Prop} {c : Config}
    (hE : EncOk c ∨ (E .missingSecret ∧ E .panic ∧ E .badKey)) : Tri P (KeysOf c) E (xtsKeys c) := by
  unfold xtsKeys
  cases he : c.encryption with
  | none => exact tri_pure (by unfold KeysOf; rw [he])
  | some n =>
    refine tri_bind (tri_secret fun h => ?_) fun k hk => ?_
    · rcases hE with hE | hE
      · obtain ⟨k, h', _⟩ := hE n he; rw [h] at h'; cases h'
      · exact hE.1
    · have hlen : k.length = 64 ∨ (E .missingSecret ∧ E .panic ∧ E .badKey) := by
        rcases hE with hE | hE
        · obtain ⟨k', h', hl⟩ := hE n he; rw [hk] at h'; cases h'; exact Or.inl hl
        · exact Or.inr hE
      by_cases h32 : k.length < 32
      · simp only [h32, ↓reduceIte]
        refine tri_fail ?_
        rcases hlen with h | h
        · omega
        · exact h.2.1
      · simp only [h32, ↓reduceIte]
        by_cases h64 : k.length = 64
        · have hn : Crypt.Keys.new (k.take 32) (k.drop 32) = .ok ⟨k.take 32, k.drop 32⟩ := by
            have h1 : (k.take 32).length = 32 := by simp [h64]
            have h2 : (k.drop 32).length = 32 := by simp [h64]
            simp only [Crypt.Keys.new, Crypt.ensure32, h1, h2, ↓reduceIte]; rfl
          rw [hn]
          refine tri_pure ?_
          unfold KeysOf
          rw [he]
          exact ⟨k, hk, h64, rfl⟩
        · have hn : ∃ e, Crypt.Keys.new (k.take 32) (k.drop 32) = .error e := by
            have h1 : (k.take 32).length = 32 := by simp; omega
            have h2 : ¬(k.drop 32).length = 32 := by simp; omega
            simp only [Crypt.Keys.new, Crypt.ensure32, h1, h2, ↓reduceIte]
            exact ⟨_, rfl⟩
          obtain ⟨e, hn⟩ := hn
          rw [hn]
          refine tri_fail ?_
          rcases hlen with h | h
          · exact absurd h h64
          · exact h.2.2

/-- The file `build_block_device` opens. -/
def volFile (c : Config) (path : List Char) (ro : Bool) : File := ⟨path, ro, true, c.tuning.sync, c.tuning.writeThrough, c.tuning.queueSize⟩

theorem tri_device {P : Act → Prop} {E : Err → Prop} {c : Config} {path : List Char} {ro : Bool}
    (hP : P (.openFile (volFile c path ro))) (ho : ∀ a, E (.outside a))
    (hE : EncOk c ∨ (E .missingSecret ∧ E .panic ∧ E .badKey)) :
    Tri P (fun d => d.file = volFile c path ro ∧ KeysOf c d.keys) E (buildBlockDevice c path ro) :=
  tri_bind (tri_ask hP (ho _)) fun _ _ => tri_bind (tri_xtsKeys hE) fun _ hk => tri_pure ⟨rfl, hk⟩

theorem tri_rawImage {P : Act → Prop} {E : Err → Prop} {c : Config}
    (hP : ∀ p a b, c.source = some (.raw p a b) → P (.openFile ⟨p, true, true, c.tuning.sync, c.tuning.writeThrough, 64⟩))
    (ho : ∀ a, E (.outside a)) :
    Tri P (fun o => match imagePath c with | none => o = none | some p => ∃ d, o = some d ∧ ImageOf c p d) E (buildRawImage c) := by
  unfold buildRawImage
  cases h : imagePath c with
  | none => exact tri_pure rfl
  | some p =>
    have hs : ∃ a b, c.source = some (.raw p a b) := by
      unfold imagePath at h
      split at h
      · cases h; exact ⟨_, _, by assumption⟩
      · cases h
    obtain ⟨a, b, hs⟩ := hs
    exact tri_bind (tri_ask (hP p a b hs) (ho _)) fun _ _ => tri_pure ⟨_, rfl, ⟨rfl, rfl, rfl, rfl⟩⟩

/-- The secrets of a store are there. -/
def StoreSecrets (st : Storage) (secrets : List (String × Bytes)) : Prop :=
  (∀ n, kekName st = some n → ∃ b, secrets.lookup n = some b) ∧
  match st with
  | .filesystem _ _ _ => True
  | .s3 s => (∃ b, secrets.lookup s.accessKeyId = some b) ∧ (∃ b, secrets.lookup s.secretAccessKey = some b) ∧
      ∀ n, s.sessionToken = some n → ∃ b, secrets.lookup n = some b

theorem tri_secretText {P : Act → Prop} {E : Err → Prop} {t : Text} {secrets : List (String × Bytes)} {n : String}
    (hE : secrets.lookup n = none → E .missingSecret) (hn : E .notText) :
    Tri P (fun s => TextOf t secrets n s) E (secretText t secrets n) := by
  refine tri_bind (tri_secret hE) fun b hb => ?_
  cases h : t.decode b with
  | none => exact tri_fail hn
  | some s => exact tri_pure ⟨b, hb, h⟩

theorem tri_optSecretText {P : Act → Prop} {E : Err → Prop} {t : Text} {secrets : List (String × Bytes)} {o : Option String}
    (hE : ∀ n, o = some n → secrets.lookup n = none → E .missingSecret) (hn : E .notText) :
    Tri P (fun s => (∀ n, o = some n → ∃ x, s = some x ∧ TextOf t secrets n x) ∧ (o = none → s = none)) E (optSecretText t secrets o) := by
  cases o with
  | none => exact tri_pure ⟨fun _ h => (by cases h), fun _ => rfl⟩
  | some n =>
    refine tri_bind (tri_secretText (hE n rfl) hn) fun s hs => tri_pure ⟨?_, fun h => (by cases h)⟩
    intro n' h'; cases h'; exact ⟨s, rfl, hs⟩

theorem workers_eq (n : Nat) : workers n = max 1 (min 128 n) := by
  unfold workers
  by_cases h : n < 1
  · have : n = 0 := by omega
    subst this; rfl
  · simp only [h, ↓reduceIte]
    by_cases h' : n > 128
    · simp only [h', ↓reduceIte]; omega
    · simp only [h', ↓reduceIte]; omega

theorem tri_store {P : Act → Prop} {E : Err → Prop} {t : Text} {st : Storage} {secrets : List (String × Bytes)}
    (hd : ∀ p k a, st = .filesystem p k a → P (.makeDir p)) (hc : ∀ s, StoreOf t secrets st s → P (.startClient s))
    (ho : ∀ a, E (.outside a)) (hn : E .notText)
    (hE : StoreSecrets st secrets ∨ E .missingSecret) : Tri P (StoreOf t secrets st) E (buildStore t st secrets) := by
  have key : ∀ n, (StoreSecrets st secrets → ∃ b, secrets.lookup n = some b) → secrets.lookup n = none → E .missingSecret := by
    intro n h h0
    rcases hE with hE | hE
    · obtain ⟨b, hb⟩ := h hE; rw [h0] at hb; cases hb
    · exact hE
  cases st with
  | filesystem p k a => exact tri_bind (tri_ask (hd p k a rfl) (ho _)) fun _ _ => tri_pure (.directory p k a)
  | s3 s =>
    refine tri_bind (tri_secretText (key _ fun h => h.2.1) hn) fun id hid => ?_
    refine tri_bind (tri_secretText (key _ fun h => h.2.2.1) hn) fun sk hsk => ?_
    refine tri_bind (tri_optSecretText (fun n h => key n fun h' => h'.2.2.2 n h) hn) fun tk htk => ?_
    have hst : ∀ cl n, cl = (⟨s.endpoint, s.region, id, sk, tk, s.connectTimeoutMs, s.operationTimeoutMs, s.maxAttempts,
        if s.rate.enabled then some (s.rate.minDelayMs, s.rate.jitterMs) else none⟩ : Client) → n = workers s.connections →
        StoreOf t secrets (.s3 s) (.bucket cl s.bucket s.pfx n) := by
      rintro cl n rfl rfl
      exact .bucket s _ _ rfl rfl hid hsk htk.1 htk.2 rfl rfl rfl (fun h => by simp [h]) (fun h => by simp [h]) (workers_eq _)
    exact tri_bind (tri_ask (hc _ (hst _ _ rfl rfl)) (ho _)) fun _ _ => tri_pure (hst _ _ rfl rfl)

theorem tri_kek {P : Act → Prop} {E : Err → Prop} {st : Storage} {secrets : List (String × Bytes)}
    (hE : StoreSecrets st secrets ∨ E .missingSecret) : Tri P (KekOf secrets (kekName st)) E (buildKek st secrets) := by
  unfold buildKek
  have hk : Storage.kek st = kekName st := by cases st <;> rfl
  rw [hk]
  unfold KekOf
  cases h : kekName st with
  | none => exact tri_pure rfl
  | some n =>
    refine tri_bind (tri_secret fun h0 => ?_) fun b hb => tri_pure ⟨b, hb, by congr⟩
    rcases hE with hE | hE
    · obtain ⟨b, hb⟩ := hE.1 n h; rw [h0] at hb; cases hb
    · exact hE

/-- The secret of a connection is there. -/
def DialSecret (r : Remote) (secrets : List (String × Bytes)) : Prop := ∀ p, r.psk = some p → ∃ b, secrets.lookup p.secret = some b

theorem tri_connect {P : Act → Prop} {E : Err → Prop} {t : Text} {secrets : List (String × Bytes)} {r : Remote}
    (hd : ∀ d, DialOf secrets r d → P (.dial d)) (ho : ∀ a, E (.outside a)) (hc : ∀ p, E (.credentials p)) (hE : DialSecret r secrets ∨ E .missingSecret) :
    Tri P (fun d => DialOf secrets r d.1) E (connect t secrets r) := by
  refine tri_bind (Q := fun o => (∀ p, r.psk = some p → ∃ b, secrets.lookup p.secret = some b ∧ 16 ≤ b.length ∧ o = some (p.identity, b)) ∧
    (r.psk = none → o = none)) ?_ fun o ho' =>
    tri_bind (tri_ask (hd _ ⟨rfl, ho'.1, ho'.2, rfl, rfl⟩) (ho _)) fun m _ => tri_pure ⟨rfl, ho'.1, ho'.2, rfl, rfl⟩
  unfold dialPsk
  cases hp : r.psk with
  | none => exact tri_pure ⟨fun _ h => (by cases h), fun _ => rfl⟩
  | some p =>
    refine tri_bind (tri_secret fun h0 => ?_) fun b hb => ?_
    · rcases hE with hE | hE
      · obtain ⟨b, hb⟩ := hE p hp; rw [h0] at hb; cases hb
      · exact hE
    · split
      · exact tri_fail (hc p)
      · rename_i hlen
        refine tri_pure ⟨?_, fun h => (by cases h)⟩
        intro p' h'; cases h'
        refine ⟨b, hb, ?_, rfl⟩
        simp only [Bool.or_eq_true, decide_eq_true_eq, not_or] at hlen
        omega

theorem tri_connectAll {P : Act → Prop} {E : Err → Prop} {t : Text} {secrets : List (String × Bytes)} {r : Remote}
    (hd : ∀ d, DialOf secrets r d → P (.dial d)) (ho : ∀ a, E (.outside a)) (hc : ∀ p, E (.credentials p)) (hE : DialSecret r secrets ∨ E .missingSecret) (n : Nat) :
    Tri P (fun l => l.length = n ∧ ∀ d ∈ l, DialOf secrets r d.1) E (connectAll t secrets r n) := by
  induction n with
  | zero => exact tri_pure ⟨rfl, fun _ h => absurd h List.not_mem_nil⟩
  | succ n ih =>
    refine tri_bind (tri_connect hd ho hc hE) fun d hd' => tri_bind ih fun l hl => tri_pure ⟨by simp [hl.1], ?_⟩
    intro x hx
    rcases List.mem_cons.mp hx with rfl | hx
    · exact hd'
    · exact hl.2 x hx

/-- The secrets of the source are there. -/
def SourceSecrets (c : Config) : Prop :=
  match c.source with
  | some (.archive st) => StoreSecrets st c.secrets
  | some (.remote r) => DialSecret r c.secrets
  | _ => True

theorem tri_source {P : Act → Prop} {E : Err → Prop} {t : Text} {c : Config} {ssc : Nat} {all : Bool} (hP : Closed P t c)
    (hE : ∀ e, Fine e → E e) (hS : SourceSecrets c ∨ E .missingSecret) :
    Tri P (fun s => (all = true → s = .nothing) ∧ (all = false → SourceOf t c s)) E (buildSource t c ssc all) := by
  unfold buildSource
  cases all with
  | true => exact tri_pure ⟨fun _ => rfl, fun h => (by cases h)⟩
  | false =>
    have ho : ∀ a, E (.outside a) := fun a => hE _ trivial
    simp only [Bool.false_eq_true, ↓reduceIte, false_implies, true_implies, true_and]
    have raw : ∀ o : Option Dev, (match imagePath c with | none => o = none | some p => ∃ d, o = some d ∧ ImageOf c p d) →
        (imagePath c = none → c.source = none) →
        Tri P (SourceOf t c) E (match o with | some d => (pure (.image d) : Prog Src) | none => pure .nothing) := by
      intro o ho' hn
      cases hi : imagePath c with
      | none =>
        rw [hi] at ho'
        subst ho'
        exact tri_pure (.none (hn hi))
      | some p =>
        rw [hi] at ho'
        obtain ⟨d, rfl, hd⟩ := ho'
        unfold imagePath at hi
        split at hi
        · cases hi
          rename_i hs
          exact tri_pure (.raw _ _ _ d hs hd)
        · cases hi
    cases hs : c.source with
    | none => exact tri_bind (tri_rawImage hP.image ho) fun o ho' => raw o ho' fun _ => hs
    | some s =>
      unfold SourceSecrets at hS
      cases s with
      | raw p a b => exact tri_bind (tri_rawImage hP.image ho) fun o ho' => raw o ho' fun h => by simp [imagePath, hs] at h
      | archive st =>
        simp only [hs] at hS
        exact tri_bind (tri_store (fun p k a h => hP.dir p k a (h ▸ hs)) (fun s h => hP.client st s hs h) ho (hE _ trivial) hS) fun store hst =>
          tri_bind (tri_kek hS) fun k hk => tri_bind (tri_ask (hP.archive st _ _ hs hst hk) (ho _)) fun n _ =>
            tri_pure (.archive st store k n hs hst hk)
      | remote r =>
        simp only [hs] at hS
        refine tri_bind (tri_connectAll (fun d h => hP.dial r d hs h) ho (fun p => hE _ trivial) hS r.connections) fun l hl => ?_
        split
        · refine tri_pure (.server r _ _ hs (by simp [hl.1]) ?_)
          intro d hd
          obtain ⟨x, hx, rfl⟩ := List.mem_map.mp hd
          exact hl.2 x hx
        · exact tri_fail (hE _ trivial)

/-! ## The programs -/

theorem allThere_iff (m : Meta) : hasFetchedAll m = true ↔ AllThere m := by
  unfold hasFetchedAll AllThere
  rw [List.all_eq_true]
  constructor
  · intro h x hx h1
    have := h x hx
    simp only [Bool.or_eq_true, beq_iff_eq, bne_iff_ne] at this
    exact this.resolve_left h1
  · intro h x hx
    simp only [Bool.or_eq_true, beq_iff_eq, bne_iff_ne]
    by_cases h1 : x &&& HAS_SOURCE = 0
    · exact Or.inl h1
    · exact Or.inr (h x hx h1)

variable {t : Text} {c : Config} {E : Err → Prop}

theorem closed (p : Program) : Closed (MayAsk t c p) t c where
  image q a b h := ⟨rfl, rfl, Or.inr ⟨⟨a, b, h⟩, rfl, fun _ => rfl⟩⟩
  dir q k a h := Or.inl ⟨k, a, h⟩
  client st s h h' := Or.inl ⟨st, h, h'⟩
  archive st s k h h' h'' := ⟨st, h, h', h''⟩
  dial r d h h' := ⟨r, h, h'⟩

theorem may_data {p : Program} {ro : Bool} (h : p.opens = some ro) : MayAsk t c p (.openFile (volFile c c.device.dataPath ro)) :=
  ⟨rfl, rfl, Or.inl ⟨Or.inl rfl, h, rfl⟩⟩

theorem may_md {p : Program} {ro : Bool} (h : p.opens = some ro) {q : List Char} (hq : c.device.metadataPath = some q) :
    MayAsk t c p (.openFile (volFile c q ro)) :=
  ⟨rfl, rfl, Or.inl ⟨Or.inr hq, h, rfl⟩⟩

theorem may_load {p : Program} {ro : Bool} {q : List Char} (hq : c.device.metadataPath = some q) {d : Dev}
    (h : d.file = volFile c q ro ∧ KeysOf c d.keys) : MayAsk t c p (.loadMeta d) :=
  ⟨by rw [h.1]; exact hq, h.2⟩

/-- The source built from the volume's configuration and metadata `m`. -/
def SrcOk (t : Text) (c : Config) (m : Meta) (s : Src) : Prop := (AllThere m → s = .nothing) ∧ (¬AllThere m → SourceOf t c s)

theorem srcOk {m : Meta} {s : Src} (h : (hasFetchedAll m = true → s = .nothing) ∧ (hasFetchedAll m = false → SourceOf t c s)) : SrcOk t c m s := by
  refine ⟨fun h' => h.1 ((allThere_iff m).mpr h'), fun h' => h.2 ?_⟩
  cases hf : hasFetchedAll m with
  | false => rfl
  | true => exact absurd ((allThere_iff m).mp hf) h'

/-- The secrets a program needs are there, or their absence is allowed for. -/
def Ready (c : Config) (E : Err → Prop) : Prop := (EncOk c ∧ SourceSecrets c) ∨ (E .missingSecret ∧ E .panic ∧ E .badKey)

theorem tri_lazyImage {P : Act → Prop} (hP : Closed P t c) (ho : ∀ a, E (.outside a)) :
    Tri P (fun o : Option Dev => (∀ d, o = some d → ∃ p a, c.source = some (.raw p a false) ∧ ImageOf c p d) ∧
      (∀ p a, c.source = some (.raw p a false) → o.isSome = true)) E (lazyImage c) := by
  unfold lazyImage
  cases hs : c.source with
  | none => exact tri_pure ⟨fun d h => (by cases h), fun _ _ h => (by cases h)⟩
  | some s =>
    dsimp only
    cases s with
    | archive st => exact tri_pure ⟨fun d h => (by cases h), fun _ _ h => (by cases h)⟩
    | remote r => exact tri_pure ⟨fun d h => (by cases h), fun _ _ h => (by cases h)⟩
    | raw q a b =>
      cases b with
      | true => exact tri_pure ⟨fun d h => (by cases h), fun _ _ h => (by cases h)⟩
      | false =>
        refine tri_mono (tri_rawImage hP.image ho) (fun _ h => h) ?_ (fun _ h => h)
        intro o h
        have hi : imagePath c = some q := by unfold imagePath; rw [hs]
        rw [hi] at h
        obtain ⟨d, rfl, hd'⟩ := h
        refine ⟨fun d' h' => ?_, fun _ _ _ => rfl⟩
        cases h'
        exact ⟨q, a, rfl, hd'⟩

theorem unasked_iff (c : Config) : (c.source.map autofetch).getD false = true ↔ Unasked c := by
  unfold Unasked
  cases c.source with
  | none => simp
  | some s =>
    cases s with
    | raw q a b => cases a <;> simp [autofetch]
    | remote r => simp [autofetch]
    | archive st =>
      cases st with
      | filesystem q k a => cases a <;> simp [autofetch]
      | s3 s => simp [autofetch]

/-- The parts of a backend. -/
structure BackendParts (t : Text) (c : Config) (x : Parts) : Prop where
  ok : AsConfigured t c .backend x
  disk : x.disk.isSome = true
  md : x.md.isSome = c.device.metadataPath.isSome
  source : x.source.isSome = c.device.metadataPath.isSome
  image : ∀ q a, c.device.metadataPath.isSome = true → c.source = some (.raw q a false) → x.image.isSome = true
  autofetch : c.device.metadataPath.isSome = true → x.autofetch = (c.source.map autofetch).getD false
  track : c.device.metadataPath.isSome = true → x.trackWritten = c.device.trackWritten
  align : 4096 ≤ x.alignment
  trackers : x.trackers = (c.tuning.numQueues, c.tuning.queueSize)
  fits : ∀ d s, x.disk = some d → x.source = some s → s.sectors ≤ d.sectors

theorem tri_backend (hE : ∀ e, Fine e → E e) (hS : Ready c E) :
    Tri (MayAsk t c .backend) (BackendParts t c) E (backend t c) := by
  have ho : ∀ a, E (.outside a) := fun a => hE _ trivial
  have hEnc : EncOk c ∨ (E .missingSecret ∧ E .panic ∧ E .badKey) := hS.imp And.left id
  have hSrc : SourceSecrets c ∨ E .missingSecret := hS.imp And.right And.left
  have hal : ∀ b, 4096 ≤ max BUFFER_ALIGNMENT b := fun b => by unfold BUFFER_ALIGNMENT; omega
  refine tri_bind (tri_ask ⟨rfl, rfl⟩ (ho _)) fun block _ => ?_
  refine tri_bind (tri_device (may_data rfl) ho hEnc) fun disk hd => ?_
  dsimp only
  cases hm : c.device.metadataPath with
  | none =>
    refine tri_pure ⟨⟨?_, ?_, ?_, ?_, ?_, ?_⟩, rfl, (by rw [hm]; rfl), (by rw [hm]; rfl), ?_, ?_, ?_, hal _, rfl, ?_⟩
    · intro d h; cases h; exact ⟨by rw [hd.1]; rfl, hd.2⟩
    · intro d m h; cases h
    · intro d h; cases h
    · intro m s _ _ h; cases h
    · intro s _ h; cases h
    · intro s k h; cases h
    · intro _ _ h; rw [hm] at h; cases h
    · intro h; rw [hm] at h; cases h
    · intro h; rw [hm] at h; cases h
    · intro d s _ h; cases h
  | some p =>
    refine tri_bind (tri_device (may_md rfl hm) ho hEnc) fun md hmd => ?_
    refine tri_bind (tri_ask (may_load hm hmd) (ho _)) fun m _ => ?_
    refine tri_bind (tri_lazyImage (closed _) ho) fun img himg => ?_
    refine tri_bind (tri_source (closed _) hE hSrc) fun src hsrc => ?_
    have hsrc := srcOk hsrc
    refine tri_bind (tri_ask (may_load hm hmd) (ho _)) fun m' _ => ?_
    split
    · exact tri_fail (hE _ trivial)
    · split
      · exact tri_fail (hE _ trivial)
      · rename_i hfit
        refine tri_pure ⟨⟨?_, ?_, himg.1, ?_, ?_, ?_⟩, rfl, (by rw [hm]; rfl), (by rw [hm]; rfl), fun q a _ h => himg.2 q a h, fun _ => rfl, fun _ => rfl, hal _, rfl, ?_⟩
        · intro d h; cases h; exact ⟨by rw [hd.1]; rfl, hd.2⟩
        · intro d m'' h; cases h; exact ⟨by rw [hmd.1]; exact hm, hmd.2⟩
        · intro m'' s h1 h2 h3; cases h1; cases h3; exact hsrc.1 h2
        · intro s h1 h3; cases h3; exact hsrc.2 (h1 m rfl)
        · intro s k h; cases h
        · intro d s h1 h2; cases h1; cases h2; omega

theorem tri_archive (tc : TargetConfig) (hE : ∀ e, Fine e → E e) (hS : Ready c E) (hT : StoreSecrets tc.target tc.secrets ∨ E .missingSecret) :
    Tri (MayAsk t c (.archive tc))
      (fun x => AsConfigured t c (.archive tc) x ∧ x.disk.isSome = true ∧ x.md.isSome = true ∧ x.source.isSome = true ∧ x.target.isSome = true)
      E (archive t c tc) := by
  have ho : ∀ a, E (.outside a) := fun a => hE _ trivial
  have hEnc : EncOk c ∨ (E .missingSecret ∧ E .panic ∧ E .badKey) := hS.imp And.left id
  have hSrc : SourceSecrets c ∨ E .missingSecret := hS.imp And.right And.left
  unfold archive
  cases hm : c.device.metadataPath with
  | none => exact tri_fail (hE _ trivial)
  | some p =>
    refine tri_bind (tri_device (may_md rfl hm) ho hEnc) fun md hmd => ?_
    refine tri_bind (tri_ask (may_load hm hmd) (ho _)) fun m _ => ?_
    refine tri_bind (tri_device (may_data rfl) ho hEnc) fun disk hd => ?_
    refine tri_bind (tri_source (closed _) hE hSrc) fun src hsrc => ?_
    have hsrc := srcOk hsrc
    refine tri_bind (tri_ask (show MayAsk t c (.archive tc) .loadTarget from ⟨tc, rfl⟩) (ho _)) fun _ _ => ?_
    refine tri_bind (tri_store (fun q k a h => Or.inr ⟨tc, k, a, rfl, h⟩) (fun s h => Or.inr ⟨tc, rfl, h⟩) ho (hE _ trivial) hT) fun store hst => ?_
    refine tri_bind (tri_kek hT) fun k hk => ?_
    refine tri_pure ⟨⟨?_, ?_, ?_, ?_, ?_, ?_⟩, rfl, rfl, rfl, rfl⟩
    · intro d h; cases h; exact ⟨by rw [hd.1]; rfl, hd.2⟩
    · intro d m'' h; cases h; exact ⟨by rw [hmd.1]; exact hm, hmd.2⟩
    · intro d h; cases h
    · intro m'' s h1 h2 h3; cases h1; cases h3; exact hsrc.1 h2
    · intro s h1 h3; cases h3; exact hsrc.2 (h1 m rfl)
    · intro s k' h; cases h; exact ⟨tc, rfl, hst, hk⟩

theorem tri_serve (hE : ∀ e, Fine e → E e) (hS : Ready c E) :
    Tri (MayAsk t c .server) (fun x => AsConfigured t c .server x ∧ x.disk.isSome = true ∧ x.md.isSome = c.device.metadataPath.isSome ∧
      ∀ d m, x.md = some (d, m) → c.source = none → AllThere m) E (serve c) := by
  have ho : ∀ a, E (.outside a) := fun a => hE _ trivial
  have hEnc : EncOk c ∨ (E .missingSecret ∧ E .panic ∧ E .badKey) := hS.imp And.left id
  refine tri_bind (tri_device (may_data rfl) ho hEnc) fun disk hd => ?_
  cases hm : c.device.metadataPath with
  | none =>
    refine tri_pure ⟨⟨?_, ?_, ?_, ?_, ?_, ?_⟩, rfl, rfl, ?_⟩
    · intro d h; cases h; exact ⟨by rw [hd.1]; rfl, hd.2⟩
    · intro d m h; cases h
    · intro d h; cases h
    · intro m s _ _ h; cases h
    · intro s _ h; cases h
    · intro s k h; cases h
    · intro d m h; cases h
  | some p =>
    refine tri_bind (tri_device (may_md rfl hm) ho hEnc) fun md hmd => ?_
    refine tri_bind (tri_ask (may_load hm hmd) (ho _)) fun m _ => ?_
    split
    · exact tri_fail (hE _ trivial)
    · rename_i hn
      refine tri_pure ⟨⟨?_, ?_, ?_, ?_, ?_, ?_⟩, rfl, rfl, ?_⟩
      · intro d h; cases h; exact ⟨by rw [hd.1]; rfl, hd.2⟩
      · intro d m'' h; cases h; exact ⟨by rw [hmd.1]; exact hm, hmd.2⟩
      · intro d h; cases h
      · intro m s _ _ h; cases h
      · intro s _ h; cases h
      · intro s k h; cases h
      · intro d m'' h h0
        cases h
        rw [h0] at hn
        refine (allThere_iff m).mp ?_
        cases hf : hasFetchedAll m with
        | true => rfl
        | false => simp [hf] at hn

theorem tri_session (m : Meta) (hE : ∀ e, Fine e → E e) (hS : Ready c E) :
    Tri (MayAsk t c (.session m)) (fun x => AsConfigured t c (.session m) x ∧ x.source.isSome = true) E (session t c m) := by
  have hSrc : SourceSecrets c ∨ E .missingSecret := hS.imp And.right And.left
  refine tri_bind (tri_source (closed _) hE hSrc) fun src hsrc => ?_
  have hsrc := srcOk hsrc
  refine tri_pure ⟨⟨?_, ?_, ?_, ?_, ?_, ?_⟩, rfl⟩
  · intro d h; cases h
  · intro d m h; cases h
  · intro d h; cases h
  · intro m' s h1 h2 h3; cases h1; cases h3; exact hsrc.1 h2
  · intro s h1 h3; cases h3; exact hsrc.2 (h1 m rfl)
  · intro s k h; cases h

theorem tri_init (shift : UInt8) (hE : ∀ e, Fine e → E e) (hS : Ready c E) :
    Tri (MayAsk t c (.init shift)) (fun x => AsConfigured t c (.init shift) x ∧ x.source.isSome = c.source.isSome) E (initMetadata t c shift) := by
  have ho : ∀ a, E (.outside a) := fun a => hE _ trivial
  have hEnc : EncOk c ∨ (E .missingSecret ∧ E .panic ∧ E .badKey) := hS.imp And.left id
  have hSrc : SourceSecrets c ∨ E .missingSecret := hS.imp And.right And.left
  unfold initMetadata
  cases hm : c.device.metadataPath with
  | none => exact tri_fail (hE _ trivial)
  | some p =>
    refine tri_bind (tri_device (may_data rfl) ho hEnc) fun disk hd => ?_
    refine tri_bind (Q := fun o : Option Src => o.isSome = c.source.isSome ∧ ∀ s, o = some s → SourceOf t c s) ?_ fun src hsrc => ?_
    · unfold initSource
      cases hs : c.source with
      | none => exact tri_pure ⟨rfl, fun s h => (by cases h)⟩
      | some s =>
        refine tri_bind (tri_source (closed _) hE hSrc) fun src hsrc => tri_pure ⟨rfl, fun s h => ?_⟩
        cases h
        exact hsrc.2 rfl
    refine tri_bind (tri_ask (show MayAsk t c (.init shift) (.create p) from ⟨shift, rfl, hm⟩) (ho _)) fun _ _ => ?_
    refine tri_bind (tri_device (may_md rfl hm) ho hEnc) fun md hmd => ?_
    refine tri_bind (tri_ask (show MayAsk t c (.init shift) (.saveMeta md) from ⟨shift, rfl, by rw [hmd.1]; exact hm, hmd.2⟩) (ho _)) fun _ _ => ?_
    refine tri_pure ⟨⟨?_, ?_, ?_, ?_, ?_, ?_⟩, hsrc.1⟩
    · intro d h; cases h; exact ⟨by rw [hd.1]; rfl, hd.2⟩
    · intro d m h; cases h
    · intro d h; cases h
    · intro m' s h1; cases h1
    · intro s _ h; exact hsrc.2 s h
    · intro s k h; cases h

theorem tri_dump (hE : ∀ e, Fine e → E e) (hS : Ready c E) :
    Tri (MayAsk t c .dump) (fun x => AsConfigured t c .dump x ∧ x.disk.isSome = true ∧ x.md.isSome = true) E (dump c) := by
  have ho : ∀ a, E (.outside a) := fun a => hE _ trivial
  have hEnc : EncOk c ∨ (E .missingSecret ∧ E .panic ∧ E .badKey) := hS.imp And.left id
  refine tri_bind (tri_device (may_data rfl) ho hEnc) fun disk hd => ?_
  refine tri_bind (Q := fun _ => True) ?_ fun _ _ => ?_
  · unfold dumpImage
    cases hi : imagePath c with
    | none => exact tri_pure trivial
    | some q =>
      have hs : ∃ a b, c.source = some (.raw q a b) := by
        unfold imagePath at hi
        split at hi
        · cases hi; exact ⟨_, _, by assumption⟩
        · cases hi
      exact tri_bind (tri_ask ⟨rfl, rfl, Or.inr ⟨hs, rfl, fun h => absurd rfl h⟩⟩ (ho _)) fun _ _ => tri_pure trivial
  cases hm : c.device.metadataPath with
  | none => exact tri_fail (hE _ trivial)
  | some p =>
    refine tri_bind (tri_device (may_md rfl hm) ho hEnc) fun md hmd => ?_
    refine tri_bind (tri_ask (may_load hm hmd) (ho _)) fun m _ => ?_
    refine tri_pure ⟨⟨?_, ?_, ?_, ?_, ?_, ?_⟩, rfl, rfl⟩
    · intro d h; cases h; exact ⟨by rw [hd.1]; rfl, hd.2⟩
    · intro d m'' h; cases h; exact ⟨by rw [hmd.1]; exact hm, hmd.2⟩
    · intro d h; cases h
    · intro m s _ _ h; cases h
    · intro s _ h; cases h
    · intro s k h; cases h

theorem tri_run (p : Program) (hE : ∀ e, Fine e → E e) (hS : Ready c E)
    (hT : (∀ tc, p = .archive tc → StoreSecrets tc.target tc.secrets) ∨ E .missingSecret) :
    Tri (MayAsk t c p) (AsConfigured t c p) E (p.run t c) := by
  cases p with
  | backend => exact tri_mono (tri_backend hE hS) (fun _ h => h) (fun _ h => h.ok) (fun _ h => h)
  | archive tc => exact tri_mono (tri_archive tc hE hS (hT.imp (fun h => h tc rfl) id)) (fun _ h => h) (fun _ h => h.1) (fun _ h => h)
  | server => exact tri_mono (tri_serve hE hS) (fun _ h => h) (fun _ h => h.1) (fun _ h => h)
  | session m => exact tri_mono (tri_session m hE hS) (fun _ h => h) (fun _ h => h.1) (fun _ h => h)
  | init shift => exact tri_mono (tri_init shift hE hS) (fun _ h => h) (fun _ h => h.1) (fun _ h => h)
  | dump => exact tri_mono (tri_dump hE hS) (fun _ h => h) (fun _ h => h.1) (fun _ h => h)

/-! ## Runs against a fixed outside -/

theorem against_run (o : Outside) (p : Prog α) : Run p (against o p).1 (against o p).2 := by
  induction p with
  | done r => exact .done r
  | ask a next ih => exact .ask a next _ _ _ (ih _)

theorem against_bind (o : Outside) (p : Prog α) (f : α → Prog β) :
    (against o (p >>= f)).2 = match (against o p).2 with | .ok a => (against o (f a)).2 | .error e => .error e := by
  show (against o (p.bind f)).2 = _
  induction p with
  | done r => cases r <;> rfl
  | ask a next ih => exact ih _

theorem against_ask (o : Outside) (a : Act) : (against o (ask a)).2 = match o a with | some x => .ok x | none => .error (.outside a) := by
  show (against o (match o a with | some x => .done (.ok x) | none => .done (.error (.outside a)))).2 = _
  cases o a <;> rfl

end Verif.Assemble
