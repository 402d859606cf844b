import Verif.Model.ArchiveRead

/-! # Vocabulary for C88: archiving and exporting come to an end

Steps are counted, leaving out those in which only the object store works or in which nothing has arrived. -/

namespace Verif.Archive
open Verif Verif.Crypt Verif.Disk

/-- Only the object store worked: the archiver is as before, and so are the uploads it waits for. -/
def StoreOnly (s s' : St) : Prop :=
  ∃ puts store, s' = { s with puts := puts, store := store } ∧ puts.map (·.1) = s.puts.map (·.1)

/-- A run of the archiver with the number of its steps that are not the store's alone. -/
inductive Took (c : Cfg) : St → Nat → List Lab → St → Prop where
  | nil (s : St) : Took c s 0 [] s
  | store {s s' s'' : St} {n : Nat} {ls : List Lab} {l : Lab} :
      Took c s n ls s' → Step c s' l s'' → StoreOnly s' s'' → Took c s n (ls ++ [l]) s''
  | work {s s' s'' : St} {n : Nat} {ls : List Lab} {l : Lab} :
      Took c s n ls s' → Step c s' l s'' → ¬ StoreOnly s' s'' → Took c s (n + 1) (ls ++ [l]) s''

/-- The command has returned. -/
def St.over (s : St) : Prop := s.phase = .done ∨ s.phase = .failed

/-- A step in which nothing goes wrong outside the archiver: every answer is a success, no read is refused when it is handed over and
no upload takes too long. -/
def Smooth (c : Cfg) (s : St) (l : Lab) (s' : St) : Prop :=
  Step c s l s' ∧ (∀ id buf, l ≠ .fetched id false buf) ∧ (∀ n, l ≠ .uploaded n false) ∧
  (l = .tau → s.phase = .running → s.next < c.count → shouldArchive c s.next = .ok true → s'.phase ≠ .failed) ∧
  (l = .tau → s.phase = .metaPut ∨ s.phase = .mapPut → s'.phase ≠ .failed)

/-- A run of such steps. -/
inductive SmoothRun (c : Cfg) : St → List Lab → St → Prop where
  | nil (s : St) : SmoothRun c s [] s
  | snoc {s s' s'' : St} {ls : List Lab} {l : Lab} : SmoothRun c s ls s' → Smooth c s' l s'' → SmoothRun c s (ls ++ [l]) s''

/-- The export found nothing new: it only looked at the store's answers, and there were none. -/
def Waits (e e' : Ex) : Prop :=
  ∃ gets, e' = { e with rd := { e.rd with gets := gets } } ∧ gets.length = e.rd.gets.length

/-- A run of an export with the number of its steps that are not mere waiting. -/
inductive ETook (P : Prims) (src : Src) (store : Name → Option Bytes) : Nat → Ex → Prop where
  | init : ETook P src store 0 (Ex.init src)
  | wait {n e e'} : ETook P src store n e → EStep P src store e e' → Waits e e' → ETook P src store n e'
  | work {n e e'} : ETook P src store n e → EStep P src store e e' → ¬ Waits e e' → ETook P src store (n + 1) e'

/-- A step of an export in which the store answers no read with an error. -/
inductive EServedStep (P : Prims) (src : Src) (store : Name → Option Bytes) : Ex → Ex → Prop where
  | submit (e : Ex) : e.phase = .running → e.inflight.length < 16 → e.next < src.stripes → EServedStep P src store e (e.submit src)
  | poll (e : Ex) (cs : List (Name × Option Bytes)) (rest : List Name) : e.phase = .running →
      Answers store e.rd.gets cs rest → (∀ a ∈ cs, a.2 ≠ none) → EServedStep P src store e (e.poll P src cs rest)
  | done (e : Ex) : e.phase = .running → ¬ e.written < src.stripes → EServedStep P src store e { e with phase := .done }

/-- A run of such steps. -/
inductive EServed (P : Prims) (src : Src) (store : Name → Option Bytes) : Ex → Ex → Prop where
  | nil (e : Ex) : EServed P src store e e
  | snoc {e e' e'' : Ex} : EServed P src store e e' → EServedStep P src store e' e'' → EServed P src store e e''

end Verif.Archive
