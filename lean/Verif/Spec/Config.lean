import Verif.Model.Toml

/-! # What a configuration says

Specification vocabulary for C44-C46. A configuration is what it assigns to dotted keys. -/

namespace Verif.Config

/-- What a document has at a dotted key: a value, or a table (whatever is in it). -/
inductive Setting where
  | value (a : Atom)
  | table
deriving DecidableEq

/-- What a document has at a dotted key. -/
def settings (t : Tbl) : List String → Option Setting
  | [] => some .table
  | k :: p =>
    match t.get k with
    | none => none
    | some (.atom a) => if p = [] then some (.value a) else none
    | some (.table t') => settings t' p

/-- A key occurs at most once in a table, at every level, as in every TOML document. -/
def Tbl.Wf : Tbl → Prop
  | .nil => True
  | .leaf k _ r => r.get k = none ∧ r.Wf
  | .sub k t r => r.get k = none ∧ t.Wf ∧ r.Wf

/-- Two documents do not give the same key twice: what both have is tables. -/
def Compatible (s t : Tbl) : Prop :=
  ∀ p x y, settings s p = some x → settings t p = some y → x = .table ∧ y = .table

/-- Where a path leads from a directory (given by its names from the root), not following links: `..` goes up. -/
def walk (dir : List (List Char)) : List (List Char) → List (List Char)
  | [] => dir
  | s :: ss =>
    if s = [] ∨ s = ['.'] then walk dir ss
    else if s = ['.', '.'] then walk dir.dropLast ss
    else walk (dir ++ [s]) ss

end Verif.Config
