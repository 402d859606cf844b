import Verif.Model.Tail

/-! # What a stripe of a disk of any size is

Stated by sector number, without the functions that read and write. -/

namespace Verif.Tail
variable {D : Type}

/-- The contents of sector `x` of the volume kept on `disk`: none past its end. -/
def sectorOf (dec : Nat → D → D) (disk : List D) (x : Nat) : Option D := disk[x]?.map (dec x)

/-- `b` is stripe `k` of the volume, with `rest i` at every place `i` of the stripe that is past the end of the disk. -/
def IsStripe (dec : Nat → D → D) (disk : List D) (ssc k : Nat) (rest : Nat → Option D) (b : List D) : Prop :=
  b.length = ssc ∧ ∀ i, i < ssc → b[i]? = if k * ssc + i < disk.length then sectorOf dec disk (k * ssc + i) else rest i

/-- The sectors `[o, o + c)` are those of stripe `k` that are on a disk of `n` sectors: there are some, none is past the end
and none is missing. -/
def Covers (ssc n k o c : Nat) : Prop :=
  0 < c ∧ o + c ≤ n ∧ ∀ x, (o ≤ x ∧ x < o + c) ↔ (k * ssc ≤ x ∧ x < (k + 1) * ssc ∧ x < n)

end Verif.Tail
