import Verif.Model.Shell
import Verif.Spec.Remote
import Mathlib.Data.Nat.Digits.Defs

/-! # What the stripe shell is asked and told -/

namespace Verif.Shell
open Verif Verif.Metadata Verif.Remote

/-- The line consists of these words: blanks may stand before, between and after them, and must stand between them. -/
inductive Spaced (ws : Char → Bool) : List Text → Text → Prop where
  | none (b : Text) : (∀ c ∈ b, ws c = true) → Spaced ws [] b
  | word (b t r : Text) (ts : List Text) : (∀ c ∈ b, ws c = true) → t ≠ [] → (∀ c ∈ t, ws c = false) → Spaced ws ts r →
      (∀ c, r.head? = some c → ws c = true) → Spaced ws (t :: ts) (b ++ t ++ r)

/-- The decimal numeral of the digits `ds`, most significant last as in `Nat.ofDigits`. -/
def numeral (ds : List Nat) : Text := (ds.reverse).map fun d => Char.ofNat (48 + d)

/-- `t` is a numeral of `n`: decimal digits, possibly with zeros or a plus sign in front. -/
def Numeral (n : Nat) (t : Text) : Prop :=
  ∃ ds, ds ≠ [] ∧ (∀ d ∈ ds, d < 10) ∧ Nat.ofDigits 10 ds = n ∧ (t = numeral ds ∨ t = '+' :: numeral ds)

/-- Where a session stands: the shell, how many requests the server has answered on this connection (two for the greeting and the
metadata), and whether the server still has the connection. -/
structure Sess where
  st : St
  asked : Nat
  live : Bool

/-- What the server sends for the request a line makes: nothing without a request or once it has closed the connection. -/
def due (s : Srv) (σ : Sess) (a : Act) : Bytes :=
  match wants s.md a with
  | none => []
  | some k => if σ.live then (s.handleRead σ.asked k).1 else []

/-- The session after a line, when `arrive` is what arrived meanwhile. -/
def Sess.next (s : Srv) (σ : Sess) (a : Act) (arrive : List Bytes) : Sess :=
  match wants s.md a with
  | none => { σ with st := (exec s.md σ.st a arrive).1 }
  | some k => ⟨(exec s.md σ.st a arrive).1, σ.asked + 1, σ.live && (s.handleRead σ.asked k).2⟩

/-- A session in which every reply arrives while it is waited for, cut into chunks as the network likes; the reads of the server
may fail, and it then ends the connection. The history lists each line's meaning and what was printed. -/
inductive Prompt (s : Srv) : List (Act × Out) → Sess → Prop where
  | start : Prompt s [] ⟨.init, 2, true⟩
  | line {h σ} (a : Act) (arrive : List Bytes) : Prompt s h σ → σ.st.ended = false → arrive.flatten = due s σ a →
      Prompt s (h ++ [(a, (exec s.md σ.st a arrive).2)]) (σ.next s a arrive)

/-- A session in which replies may be late: what has arrived is a beginning of what the server has sent. -/
inductive Late (s : Srv) : List (Act × Out) → Sess → (sent got : Bytes) → Prop where
  | start : Late s [] ⟨.init, 2, true⟩ [] []
  | line {h σ sent got} (a : Act) (arrive : List Bytes) : Late s h σ sent got → σ.st.ended = false →
      (got ++ arrive.flatten) <+: (sent ++ due s σ a) →
      Late s (h ++ [(a, (exec s.md σ.st a arrive).2)]) (σ.next s a arrive) (sent ++ due s σ a) (got ++ arrive.flatten)

/-- The bytes from `off` on, `len` of them. -/
def slice (b : Bytes) (off len : Nat) : Bytes := (b.drop off).take len

end Verif.Shell
