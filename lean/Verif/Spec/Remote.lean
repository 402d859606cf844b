import Verif.Model.Metadata

/-! # What a stripe server should say

A specification of the stripe protocol that does not mention the server's code: commands, answers and their encoding
on the wire, and which answer a volume calls for. -/

namespace Verif.Remote
open Verif Verif.Metadata

/-- A complete command. -/
inductive Cmd where
  | hello
  | metadata
  | read (id : Nat)
  | unknown (op : UInt8)

/-- Encoding of a command. -/
def Cmd.bytes : Cmd → Bytes
  | .metadata => [0]
  | .read id => 1 :: le 8 id
  | .hello => [2]
  | .unknown op => [op]

/-- Stripe ids have 64 bits; opcodes 0, 1 and 2 are known. -/
def Cmd.Ok : Cmd → Prop
  | .read id => id < 2 ^ 64
  | .unknown op => op ≠ 0 ∧ op ≠ 1 ∧ op ≠ 2
  | _ => True

/-- A beginning of a command that is not a complete command. -/
def Incomplete (t : Bytes) : Prop := t = [] ∨ ∃ u, t = 1 :: u ∧ u.length < 8

/-- What the server has to say. -/
inductive Answer where
  | hello (version : Nat)
  | metadata (m : Meta)
  | data (d : Bytes)
  | invalidStripe
  | noData
  | notFetched
  | badCommand
  | serverError

/-- `w` is the encoding of the answer: a status byte, and for successes a length-prefixed payload. -/
def Wire : Answer → Bytes → Prop
  | .hello v, w => w = 0 :: le 4 v
  | .metadata m, w => ∃ b, b.length = metadataSize m ∧ fromBytes b = .ok m ∧ w = 0 :: le 8 b.length ++ b
  | .data d, w => w = 0 :: le 8 d.length ++ d
  | .invalidStripe, w => w = [1]
  | .noData, w => w = [2]
  | .notFetched, w => w = [3]
  | .badCommand, w => w = [0xFE]
  | .serverError, w => w = [0xFF]

/-- The flags of a stripe. -/
structure Flags where
  fetched : Bool
  written : Bool
  hasSource : Bool

/-- Reading the flags off a header byte: bit 0 fetched, bit 1 written, bit 2 has a source. -/
def flagsOf (h : UInt8) : Flags := ⟨h.toBitVec[0], h.toBitVec[1], h.toBitVec[2]⟩

/-- A volume to be served: stripes of `ss` sectors, per stripe its flags, the local contents and, if there is one,
the image it is being fetched from. -/
structure Volume where
  ss : Nat
  flags : List Flags
  disk : Nat → Bytes
  image : Option (Nat → Bytes)

/-- A stripe whose data are still in the image only. -/
def Flags.remote (f : Flags) : Bool := f.hasSource && !f.fetched

/-- The current contents of sector `x`. -/
def Volume.sector (v : Volume) (x : Nat) : Bytes :=
  match v.flags[x / v.ss]?, v.image with
  | some f, some im => if f.remote then im x else v.disk x
  | _, _ => v.disk x

/-- The current contents of stripe `k`: its sectors in order. -/
def Volume.stripe (v : Volume) (k : Nat) : Bytes := (List.range v.ss).flatMap fun i => v.sector (k * v.ss + i)

/-- The answer a read of stripe `k` calls for. -/
def Volume.answer (v : Volume) (k : Nat) : Answer :=
  match v.flags[k]? with
  | none => .invalidStripe
  | some f =>
    if f.remote && v.image.isNone then .notFetched
    else if f.written || f.hasSource then .data (v.stripe k)
    else .noData

end Verif.Remote
