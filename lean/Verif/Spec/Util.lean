import Verif.Model.Util

/-! # What the buffer pool and the dump tool should do -/

namespace Verif.Tools

/-- The buffers a history has handed out and not taken back. -/
def outstanding : List PEv → List Buf :=
  List.foldl (fun out e => match e with
    | .got b => out ++ [b]
    | .none => out
    | .returned b => out.erase b) []

/-- Split a text at its commas. -/
def fields : List Char → List (List Char)
  | [] => [[]]
  | c :: cs =>
    if c = ',' then [] :: fields cs
    else match fields cs with
      | f :: fs => (c :: f) :: fs
      | [] => [[c]]

/-- The number a numeral stands for. -/
def number (s : List Char) : Nat := s.foldl (fun n c => 10 * n + (c.toNat - '0'.toNat)) 0

/-- The numbers one item of a printed list stands for: nothing, one number, or `first-last` with both ends. -/
def itemNumbers (s : List Char) : List Nat :=
  let a := s.takeWhile (· ≠ '-')
  match s.dropWhile (· ≠ '-') with
  | [] => if a = [] then [] else [number a]
  | _ :: b => (List.range (number b + 1 - number a)).map (number a + ·)

/-- The numbers a printed list stands for: items separated by commas, spaces before an item ignored. -/
def readList (text : List Char) : List Nat := (fields text).flatMap fun f => itemNumbers (f.dropWhile (· = ' '))

end Verif.Tools
