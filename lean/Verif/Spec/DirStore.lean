import Verif.Spec.Disk
import Verif.Util.Bytes

/-! # What an object store should do -/

namespace Verif.Dir
open Verif Verif.Disk

/-- A request to a store of named objects. -/
inductive Req where
  | put (n : List Char) (d : Bytes)
  | get (n : List Char)

/-- An answer. -/
inductive Reply where
  | stored (ok : Bool)
  | found (x : Option Bytes)

/-- One request to a store with the objects `m`: a put that reports success has replaced the object; one that reports an
error has done nothing or has left a first part of the bytes; a get that reports success gives the object. No request
changes another object. -/
inductive Serve (m : List Char → Option Bytes) : Req → Reply → (List Char → Option Bytes) → Prop where
  | stored (n : List Char) (d : Bytes) : Serve m (.put n d) (.stored true) (upd m n (some d))
  | refused (n : List Char) (d : Bytes) : Serve m (.put n d) (.stored false) m
  | torn (n : List Char) (d : Bytes) (k : Nat) : Serve m (.put n d) (.stored false) (upd m n (some (d.take k)))
  | found (n : List Char) (x : Bytes) : m n = some x → Serve m (.get n) (.found (some x)) m
  | missing (n : List Char) : Serve m (.get n) (.found none) m

/-- A sequence of requests with their answers. -/
inductive Serves : (List Char → Option Bytes) → List (Req × Reply) → (List Char → Option Bytes) → Prop where
  | nil (m : List Char → Option Bytes) : Serves m [] m
  | cons {m m' m'' : List Char → Option Bytes} {r : Req} {a : Reply} {l : List (Req × Reply)} : Serve m r a m' → Serves m' l m'' →
      Serves m ((r, a) :: l) m''

end Verif.Dir
