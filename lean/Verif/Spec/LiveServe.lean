import Verif.Model.LiveServe
import Verif.Spec.LiveArchive

/-! # Specification: what a stripe server on a volume in use may answer -/

namespace Verif.LiveServe
open Verif Verif.Metadata Verif.Disk Verif.LiveArchive

/-- What the guest of the volume sees of the log. -/
def guest : List SLab → List (Ev Bytes)
  | [] => []
  | .vol l :: r => Lazy.visible [l] ++ guest r
  | _ :: r => guest r

/-- Events of the log that are not of session `q`. -/
def foreign (q : Nat) : SLab → Prop
  | .vol _ => True
  | .ask q' _ => q' ≠ q
  | .answer q' _ => q' ≠ q

/-- An answer `b` for stripe `k` of a volume of `n` stripes of `ss` sectors. `held x v`: the volume held `v` in sector `x`, at a moment that
counts; `orig x`: its original content; `det x`: the sector is on the disk and has a content. -/
inductive Allowed (n ss : Nat) (det : Nat → Prop) (held : Nat → Bytes → Prop) (orig : Nat → Bytes) (k : Nat) : Bytes → Prop where
  /-- a read failed -/
  | error : Allowed n ss det held orig k [0xff]
  | invalid (h : n ≤ k) : Allowed n ss det held orig k [1]
  | noData (h : k < n) (ho : ∀ x, x / ss = k → det x → held x (orig x)) : Allowed n ss det held orig k [2]
  | data (h : k < n) (d : Bytes) (hl : d.length = ss * 512) (hd : ∀ i, i < ss → det (k * ss + i) → held (k * ss + i) (slice d (i * 512) 512)) :
      Allowed n ss det held orig k ([0] ++ le 8 (ss * 512) ++ d)

end Verif.LiveServe
