import Verif.Model.S3

/-! # Waiting archive operations

`put_object` and `get_object` of `/repo/src/archive/mod.rs` over the S3 store of `Model/S3`: they start an operation and poll
until a result with its name arrives or the time is up. -/

namespace Verif.S3
open Verif Verif.Disk

/-- A result of `poll_puts` (archive/mod.rs:24, s3_store.rs:165-168). -/
def Res.ofPut : Res → Prop
  | .put _ _ => True
  | .get _ _ => False

/-- A result of `poll_gets` (archive/mod.rs:27, s3_store.rs:170-173). -/
def Res.ofGet : Res → Prop
  | .put _ _ => False
  | .get _ _ => True

/-- The name a result is reported under (the `String` of the tuples at archive/mod.rs:24, 27). -/
def Res.name : Res → List Char
  | .put n _ => n
  | .get n _ => n

/-- While a call waits (archive/mod.rs:35-43, 56-64): the workers work, and results that `polled` accepts are polled. -/
inductive Waits (pfx : Option (List Char)) (polled : Res → Prop) : St → List Ev → St → Prop where
  | refl (s : St) : Waits pfx polled s [] s
  | work {s s1 s2 : St} {es : List Ev} : Waits pfx polled s es s1 → Step pfx s1 [] s2 → Waits pfx polled s es s2
  | poll {s s1 s2 : St} {es : List Ev} (r : Res) : Waits pfx polled s es s1 → polled r → Step pfx s1 [.report r] s2 →
      Waits pfx polled s (es ++ [.report r]) s2

/-- A call and what it returned (archive/mod.rs:31, 52); `none` if the time was up. -/
inductive Call where
  | put (name : List Char) (data : Bytes) (r : Option Bool)
  | get (name : List Char) (r : Option (Option Bytes))

/-- One call (archive/mod.rs:31-48 and 52-69). The results of a poll after the one that matches are dropped. -/
inductive Does (pfx : Option (List Char)) : St → Call → List Ev → St → Prop where
  /-- archive/mod.rs:45-47 -/
  | putTimeout {s s1 s2 : St} {es : List Ev} (n : List Char) (d : Bytes) : Step pfx s [.startPut n d] s1 →
      Waits pfx (fun r => r.ofPut ∧ r.name ≠ n) s1 es s2 → Does pfx s (.put n d none) (.startPut n d :: es) s2
  /-- archive/mod.rs:37-41 -/
  | putReturn {s s1 s2 s3 s4 : St} {es es' : List Ev} (n : List Char) (d : Bytes) (ok : Bool) : Step pfx s [.startPut n d] s1 →
      Waits pfx (fun r => r.ofPut ∧ r.name ≠ n) s1 es s2 → Step pfx s2 [.report (.put n ok)] s3 → Waits pfx Res.ofPut s3 es' s4 →
      Does pfx s (.put n d (some ok)) (.startPut n d :: (es ++ .report (.put n ok) :: es')) s4
  /-- archive/mod.rs:66-68 -/
  | getTimeout {s s1 s2 : St} {es : List Ev} (n : List Char) : Step pfx s [.startGet n] s1 →
      Waits pfx (fun r => r.ofGet ∧ r.name ≠ n) s1 es s2 → Does pfx s (.get n none) (.startGet n :: es) s2
  /-- archive/mod.rs:58-62 -/
  | getReturn {s s1 s2 s3 s4 : St} {es es' : List Ev} (n : List Char) (x : Option Bytes) : Step pfx s [.startGet n] s1 →
      Waits pfx (fun r => r.ofGet ∧ r.name ≠ n) s1 es s2 → Step pfx s2 [.report (.get n x)] s3 → Waits pfx Res.ofGet s3 es' s4 →
      Does pfx s (.get n (some x)) (.startGet n :: (es ++ .report (.get n x) :: es')) s4

/-- A program that calls only `put_object` and `get_object`, one after the other, on a new store (s3_store.rs:48-82): the calls, the events of
the store and its state. -/
inductive Hist (pfx : Option (List Char)) (b0 : List Char → Option Bytes) : List Call → List Ev → St → Prop where
  | nil : Hist pfx b0 [] [] { bucket := b0 }
  | idle {cs : List Call} {es : List Ev} {s s' : St} : Hist pfx b0 cs es s → Step pfx s [] s' → Hist pfx b0 cs es s'
  | call {cs : List Call} {es es' : List Ev} {s s' : St} (c : Call) : Hist pfx b0 cs es s → Does pfx s c es' s' →
      Hist pfx b0 (cs ++ [c]) (es ++ es') s'

end Verif.S3
