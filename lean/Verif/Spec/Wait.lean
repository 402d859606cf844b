import Verif.Spec.Disk

/-! # Requests executed one after the other

Specification vocabulary for C78. -/

namespace Verif.Wait
open Verif.Disk
variable {D : Type}

/-- Contents of a disk after a request, and what it returns. -/
def now (v : Nat → D) : Req D → (Nat → D) × List (Option D)
  | .read off cnt => (v, (List.range cnt).map fun i => some (v (off + i)))
  | .write off cnt data => (fun x => if off ≤ x ∧ x < off + cnt then data x else v x, [])
  | .flush => (v, [])

/-- Contents after requests made one after the other, each finished before the next, and what they return. -/
def inTurn (v : Nat → D) : List (Req D) → (Nat → D) × List (List (Option D))
  | [] => (v, [])
  | r :: rs => ((inTurn (now v r).1 rs).1, (now v r).2 :: (inTurn (now v r).1 rs).2)

/-- The history in which every request is answered with success before the next is made; they are numbered from `k`. -/
def answered : Nat → List (Req D) → List (List (Option D)) → List (Ev D)
  | k, r :: rs, g :: gs => .issue 0 k r :: .resp 0 k true g :: answered (k + 1) rs gs
  | _, _, _ => []

end Verif.Wait
