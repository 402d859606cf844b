import Verif.Model.Archive

/-! # What an archive should say about a stripe -/

namespace Verif.Archive
open Verif

/-- An archive run with the events `ls` should give `r` for stripe `id` read into a buffer of `len` bytes: the bytes
that were fetched for the stripe, then zeros; zeros if it was not fetched. -/
def Says (c : Cfg) (ls : List Lab) (id len : Nat) (r : Bytes) : Prop :=
  (∃ buf, Lab.fetched id true buf ∈ ls ∧ r = buf ++ zeros (len - c.ssc * 512)) ∨
  ((∀ buf, Lab.fetched id true buf ∉ ls) ∧ r = zeros len)

/-- Opening the objects `st` gives an archive in which every stripe of the run `ls` reads as it should. -/
def Presents (c : Cfg) (ls : List Lab) (kek : Crypt.Kek) (st : Name → Option Bytes) : Prop :=
  ∃ src, openArchive c.P kek st = .ok src ∧
    ∀ id len, id < c.count → c.ssc * 512 ≤ len → ∃ r, readStripe c.P src st id len = .ok r ∧ Says c ls id len r

/-- Opening the objects `st` gives an archive in which every stripe of the run `ls` reads as it should or cannot be
read. -/
def PresentsOrFails (c : Cfg) (ls : List Lab) (kek : Crypt.Kek) (st : Name → Option Bytes) : Prop :=
  ∃ src, openArchive c.P kek st = .ok src ∧
    ∀ id len, id < c.count → c.ssc * 512 ≤ len → (∃ e, readStripe c.P src st id len = .error e) ∨
      ∃ r, readStripe c.P src st id len = .ok r ∧ Says c ls id len r

/-- The objects `st` cannot be opened as an archive. -/
def Unopenable (P : Prims) (kek : Crypt.Kek) (st : Name → Option Bytes) : Prop := ∃ e, openArchive P kek st = .error e

end Verif.Archive
