import Verif.Model.Lazy

/-! # Vocabulary for the progress property (C16)

A run in which the backend keeps running, a run in which no metadata update is lost, and what it means that a
request of the guest is still waiting for its answer. -/

namespace Verif.Lazy
open Verif Verif.Metadata Verif.Disk

variable {D : Type}

/-- The action makes the worker drop a metadata update: the write or the flush is not accepted by the metadata
device, or it is accepted and ends with an error. -/
def Act.losesUpdate : Act D → Bool
  | .startMeta submitOk => !submitOk
  | .metaDone _ ok submitOk => !(ok && submitOk)
  | _ => false

/-- Runs without a power loss: everything that can happen while the backend keeps running. -/
inductive Alive (c : Cfg D) : Sys D → List (Lab D) → Sys D → Prop where
  | nil (s : Sys D) : Alive c s [] s
  | step {s s' s'' : Sys D} {ls ls' : List (Lab D)} {a : Act D} :
      Alive c s ls s' → Step c s' a ls' s'' → Alive c s (ls ++ ls') s''

/-- Runs without a power loss in which no metadata update is lost. -/
inductive Steady (c : Cfg D) : Sys D → List (Lab D) → Sys D → Prop where
  | nil (s : Sys D) : Steady c s [] s
  | step {s s' s'' : Sys D} {ls ls' : List (Lab D)} {a : Act D} :
      Steady c s ls s' → Step c s' a ls' s'' → a.losesUpdate = false → Steady c s (ls ++ ls') s''

/-- Request `id` of queue `q` was issued and has had no answer since. -/
def waiting (q id : Nat) (es : List (Ev D)) : Prop :=
  ∃ a b r, es = a ++ Ev.issue q id r :: b ∧ unanswered (q, id) b

/-- The history contains an answer to request `id` of queue `q`. -/
def answeredIn (q id : Nat) (es : List (Ev D)) : Prop := ∃ ok data, Ev.resp q id ok data ∈ es

/-- The guest issues nothing. -/
def noIssue (es : List (Ev D)) : Prop := ∀ q id r, Ev.issue q id r ∉ es

end Verif.Lazy
