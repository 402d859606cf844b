import Verif.Model.Psk

/-! # What C74 speaks about -/

namespace Verif.Psk
open Verif

/-- A peer that has shown credentials `c`: it sent exactly the identity, or the identity followed by a NUL and anything,
and it holds the secret. -/
def Shows (c : Creds) (p : Peer) : Prop :=
  ∃ wire, p = .keyed (some wire) c.secret ∧ (0 : UInt8) ∉ c.identity ∧ (wire = c.identity ∨ ∃ t, wire = c.identity ++ 0 :: t)

/-- A peer whose identity the server can compare: none of these makes the comparison panic. -/
def Harmless (lib : Lib) (c : Creds) : Peer → Prop
  | .noise => True
  | .keyed none _ => c.identity = []
  | .keyed (some wire) _ => lib.maxIdentity < wire.length ∨ (cstr wire).length = c.identity.length

/-- Limits within which two ends of this program can talk: they are set by the library's buffers. -/
structure Fits (lib : Lib) (c : Creds) : Prop where
  noNul : (0 : UInt8) ∉ c.identity
  identity : c.identity.length < lib.idBuf.length
  wire : c.identity.length ≤ lib.maxIdentity
  key : c.secret.length ≤ lib.keyBuf.length
  srv : c.secret.length ≤ lib.srvBuf.length

end Verif.Psk
