/-! # Specification: a plain disk with a volatile write cache

A disk is a map from sector numbers to contents. Requests are issued, take effect one sector at a time at
arbitrary moments, and complete. A sector also has a set of contents that may be found there after a power
loss. This is both the environment model of the real data and metadata devices, and (with guest requests
only) the specification that the lazily fetched disk is compared with. -/

namespace Verif.Disk

/-- Function update. -/
def upd {α β} [DecidableEq α] (f : α → β) (a : α) (b : β) : α → β := fun x => if x = a then b else f x

@[simp] theorem upd_same {α β} [DecidableEq α] (f : α → β) (a : α) (b : β) : upd f a b a = b := by simp [upd]
theorem upd_ne {α β} [DecidableEq α] (f : α → β) {a x : α} (b : β) (h : x ≠ a) : upd f a b x = f x := by
  simp [upd, h]

/-- A request in flight. `got`/`done` record, per sector, what has been transferred so far. `snap x` is the
set of contents sector `x` may have after the flush: contents at issue time, and data of writes that were in
flight then or were issued later. -/
inductive Op (D : Type) where
  | read (off cnt : Nat) (got : Nat → Option D)
  | write (off cnt : Nat) (data : Nat → D) (done : Nat → Bool)
  | flush (snap : Nat → D → Prop)

/-- Sector `x` is in the range of a request. -/
def covers (off cnt x : Nat) : Prop := off ≤ x ∧ x < off + cnt
instance (off cnt x : Nat) : Decidable (covers off cnt x) := by unfold covers; infer_instance

/-- The disk: `vol x` is what a read returns now, `pers x v` says `v` may be there after a power loss,
`ops` are the requests in flight by owner. -/
structure Dev (O D : Type) where
  vol : Nat → D
  pers : Nat → D → Prop
  ops : O → Option (Op D)

variable {O D : Type} [DecidableEq O]

/-- A disk that has just been powered on with contents `v`. -/
def Dev.fresh (v : Nat → D) : Dev O D := { vol := v, pers := fun x d => d = v x, ops := fun _ => none }

/-- A write in flight would put `v` in sector `x`. -/
def Dev.inflight (d : Dev O D) (x : Nat) (v : D) : Prop :=
  ∃ o off cnt data done, d.ops o = some (.write off cnt data done) ∧ covers off cnt x ∧ v = data x

/-- A later write may be covered by a flush already in flight. -/
def Op.addSnap (off cnt : Nat) (data : Nat → D) : Op D → Op D
  | .flush snap => .flush fun x v => snap x v ∨ (covers off cnt x ∧ v = data x)
  | o => o

def Dev.issueRead (d : Dev O D) (o : O) (off cnt : Nat) : Dev O D :=
  { d with ops := upd d.ops o (some (.read off cnt fun _ => none)) }

/-- From the moment a write is issued its data may survive a power loss. -/
def Dev.issueWrite (d : Dev O D) (o : O) (off cnt : Nat) (data : Nat → D) : Dev O D :=
  { d with
    pers := fun x v => d.pers x v ∨ (covers off cnt x ∧ v = data x)
    ops := upd (fun o' => (d.ops o').map (Op.addSnap off cnt data)) o
      (some (.write off cnt data fun _ => false)) }

def Dev.issueFlush (d : Dev O D) (o : O) : Dev O D :=
  { d with ops := upd d.ops o (some (.flush fun x v => v = d.vol x ∨ d.inflight x v)) }

/-- One sector of a request is transferred. -/
def Dev.exec (d : Dev O D) (o : O) (x : Nat) : Dev O D :=
  match d.ops o with
  | some (.read off cnt got) =>
    if covers off cnt x then { d with ops := upd d.ops o (some (.read off cnt (upd got x (some (d.vol x))))) } else d
  | some (.write off cnt data done) =>
    if covers off cnt x then
      { d with vol := upd d.vol x (data x), ops := upd d.ops o (some (.write off cnt data (upd done x true))) }
    else d
  | _ => d

/-- All sectors of a request have been transferred. -/
def Op.finished : Op D → Prop
  | .read off cnt got => ∀ x, covers off cnt x → got x ≠ none
  | .write off cnt _ done => ∀ x, covers off cnt x → done x = true
  | .flush _ => True

/-- The request of `o` leaves the device; `ok` requires it to be finished (`mayComplete`). A successful flush
makes everything outside its snapshot impossible after a power loss. -/
def Dev.complete (d : Dev O D) (o : O) (ok : Bool) : Dev O D :=
  { d with
    pers := fun x v => d.pers x v ∧ (∀ snap, d.ops o = some (.flush snap) → ok = true → snap x v)
    ops := upd d.ops o none }

def Dev.mayComplete (d : Dev O D) (o : O) (ok : Bool) : Prop :=
  ∃ op, d.ops o = some op ∧ (ok = true → op.finished)

/-- The data a completed read hands back (empty for other requests and for failures). -/
def Dev.result (d : Dev O D) (o : O) (ok : Bool) : List (Option D) :=
  match d.ops o with
  | some (.read off cnt got) => if ok then (List.range cnt).map fun i => got (off + i) else []
  | _ => []

/-- `v` is a possible contents of the whole disk after a power loss. -/
def Dev.survives (d : Dev O D) (v : Nat → D) : Prop := ∀ x, d.pers x (v x)

/-! ## The guest's view -/

/-- A guest request; `data x` is the new content of sector `x`. -/
inductive Req (D : Type) where
  | read (off cnt : Nat)
  | write (off cnt : Nat) (data : Nat → D)
  | flush

/-- What the outside world sees: request `id` issued on queue `c`, its response, a power loss. -/
inductive Ev (D : Type) where
  | issue (c id : Nat) (r : Req D)
  | resp (c id : Nat) (ok : Bool) (data : List (Option D))
  | crash

abbrev Disk (D : Type) := Dev (Nat × Nat) D

def Disk.issue (d : Disk D) (o : Nat × Nat) : Req D → Disk D
  | .read off cnt => Dev.issueRead d o off cnt
  | .write off cnt data => Dev.issueWrite d o off cnt data
  | .flush => Dev.issueFlush d o

/-- Steps of the plain disk; the list is the events seen outside. -/
inductive Disk.Step : Disk D → List (Ev D) → Disk D → Prop where
  | issue (d : Disk D) (c id : Nat) (r : Req D) (h : d.ops (c, id) = none) :
      Disk.Step d [.issue c id r] (d.issue (c, id) r)
  | exec (d : Disk D) (o : Nat × Nat) (x : Nat) : Disk.Step d [] (Dev.exec d o x)
  | respond (d : Disk D) (c id : Nat) (ok : Bool) (h : Dev.mayComplete d (c, id) ok) :
      Disk.Step d [.resp c id ok (Dev.result d (c, id) ok)] (Dev.complete d (c, id) ok)
  | crash (d : Disk D) (v : Nat → D) (h : Dev.survives d v) :
      Disk.Step d [.crash] (Dev.fresh v)

/-- Runs of the plain disk. -/
inductive Disk.Run : Disk D → List (Ev D) → Disk D → Prop where
  | nil (d : Disk D) : Disk.Run d [] d
  | snoc {d d' d'' : Disk D} {es es' : List (Ev D)} :
      Disk.Run d es d' → Disk.Step d' es' d'' → Disk.Run d (es ++ es') d''

/-! ## Histories -/

/-- Some write in the history put `v` in sector `x`. -/
def wrote (es : List (Ev D)) (x : Nat) (v : D) : Prop :=
  ∃ q id off cnt data, Ev.issue q id (.write off cnt data) ∈ es ∧ covers off cnt x ∧ v = data x

/-- No write to sector `x` in the history. -/
def quiet (es : List (Ev D)) (x : Nat) : Prop :=
  ∀ q id off cnt data, Ev.issue q id (.write off cnt data) ∈ es → ¬ covers off cnt x

/-- The response of request `o`. -/
def Ev.isResp (o : Nat × Nat) : Ev D → Prop
  | .resp q id _ _ => (q, id) = o
  | _ => False

/-- No response of request `o`, and no power loss, in this part of the history. -/
def unanswered (o : Nat × Nat) (es : List (Ev D)) : Prop := ∀ e ∈ es, ¬ e.isResp o ∧ e ≠ .crash

/-- Every write to sector `x` in the history was answered (or ended by a power loss). -/
def settledWrites (es : List (Ev D)) (x : Nat) : Prop :=
  ∀ a b q id off cnt data, es = a ++ Ev.issue q id (.write off cnt data) :: b → covers off cnt x → ¬ unanswered (q, id) b

end Verif.Disk
