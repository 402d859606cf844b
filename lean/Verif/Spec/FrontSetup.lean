import Verif.Spec.Vhost

/-! # What a guest may have outstanding, and what the backend holds for it

Specification vocabulary for C95. -/

namespace Verif.Vhost
open Verif

/-- The chains the device has taken from the ring and not given back. -/
def outstanding (es : List VEv) : Nat := (poppedIds es).length - (returnedIds es).length

/-- The guest keeps to what the device announces: at most `ring` chains are outstanding, each with at most `segs` data buffers of at most
`size` bytes. -/
def Keeps (ring segs size : Nat) (es : List VEv) : Prop :=
  ∀ (before after : List VEv) (u h : Nat) (ds : List Desc), es = before ++ .popped u h ds :: after →
    outstanding before < ring ∧ (dataDescs ds).length ≤ segs ∧ ∀ d ∈ dataDescs ds, d.len ≤ size

/-- Bytes of the data buffers the thread has allocated. -/
def allocated (v : Vq) : Nat := (v.slots.map fun s => s.buf.length).sum

/-- Bytes of the data buffers of the chains taken from the ring. -/
def asked (es : List VEv) : Nat := (es.map fun e => match e with | .popped _ _ ds => total (dataOf ds) | _ => 0).sum

end Verif.Vhost
