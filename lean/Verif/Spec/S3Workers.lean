import Verif.Model.S3Workers

/-! # What is seen of the S3 store's workers

Specification vocabulary for C98. -/

namespace Verif.S3W
open Verif Verif.S3

/-- A call of the store with this request. -/
def started : Job → Ev
  | .put n _ d => .startPut n d
  | .get n _ => .startGet n

/-- What the store's user sees. -/
def seen : List Act → List Ev
  | [] => []
  | .queued j :: as => started j :: seen as
  | .refused j :: as => started j :: seen as
  | .pollPuts out :: as => out.map .report ++ seen as
  | .pollGets out :: as => out.map .report ++ seen as
  | _ :: as => seen as

/-- Requests that were queued, in order. -/
def queuedJobs (as : List Act) : List Job := as.filterMap fun | .queued j => some j | _ => none

/-- Requests workers began, in order. -/
def begun (as : List Act) : List Job := as.filterMap fun | .take _ j => some j | _ => none

/-- Requests workers carried out. -/
def carriedOut (as : List Act) : List Job := as.filterMap fun | .finish _ j _ => some j | _ => none

/-- Requests workers are at. -/
def St.inProgress (s : St) : List Job := s.workers.flatMap Wk.job

/-- The user made no request. -/
def quiet : Act → Bool
  | .queued _ => false
  | .refused _ => false
  | _ => true

/-- What worker threads do. -/
def byWorker : Act → Bool
  | .boot _ _ => true
  | .take _ _ => true
  | .finish _ _ _ => true
  | .exit _ => true
  | _ => false

/-- Steps from any state. -/
inductive Steps (pfx : Option (List Char)) : St → List Act → St → Prop where
  | nil (s : St) : Steps pfx s [] s
  | snoc {as : List Act} {a : Act} {s s' s'' : St} : Steps pfx s as s' → Step pfx s' a s'' → Steps pfx s (as ++ [a]) s''

end Verif.S3W
