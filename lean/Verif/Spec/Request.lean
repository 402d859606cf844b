import Verif.Model.Tracker

/-! # JSON texts (RFC 8259), and which of them are requests

Written without the model's reader. A text is a list of characters. -/

namespace Verif.Request

/-- White space between tokens (RFC 8259, section 2). -/
def Ws (w : List Char) : Prop := ∀ c ∈ w, c = ' ' ∨ c = '\t' ∨ c = '\n' ∨ c = '\r'

/-- The hexadecimal digits and their values. -/
def hexTable : List (Char × Nat) :=
  [('0', 0), ('1', 1), ('2', 2), ('3', 3), ('4', 4), ('5', 5), ('6', 6), ('7', 7), ('8', 8), ('9', 9),
   ('a', 10), ('b', 11), ('c', 12), ('d', 13), ('e', 14), ('f', 15), ('A', 10), ('B', 11), ('C', 12), ('D', 13), ('E', 14), ('F', 15)]

/-- Four hexadecimal digits and the number they are. -/
def Hex4 (t : List Char) (n : Nat) : Prop :=
  ∃ a b c d x y z w, t = [a, b, c, d] ∧ (a, x) ∈ hexTable ∧ (b, y) ∈ hexTable ∧ (c, z) ∈ hexTable ∧ (d, w) ∈ hexTable ∧
    n = ((x * 16 + y) * 16 + z) * 16 + w

/-- The escapes of one letter and what they stand for (RFC 8259, section 7). -/
def shortTable : List (Char × Char) :=
  [('"', '"'), ('\\', '\\'), ('/', '/'), ('b', Char.ofNat 8), ('f', Char.ofNat 12), ('n', '\n'), ('r', '\r'), ('t', '\t')]

/-- A character that stands for itself in a string. -/
def Plain (c : Char) : Prop := c ≠ '"' ∧ c ≠ '\\' ∧ 0x20 ≤ c.toNat

/-- The spellings of one character in a string: itself, an escape of one letter, its number, or for a character beyond
0xFFFF the numbers of its two surrogates. -/
inductive Spells : List Char → Char → Prop where
  | plain {c} : Plain c → Spells [c] c
  | short {e c} : (e, c) ∈ shortTable → Spells ['\\', e] c
  | bmp {h : List Char} {c : Char} : Hex4 h c.toNat → Spells ('\\' :: 'u' :: h) c
  | pair {h l : List Char} {n m : Nat} {c : Char} : Hex4 h n → Hex4 l m → 0xD800 ≤ n → n ≤ 0xDBFF → 0xDC00 ≤ m → m ≤ 0xDFFF →
      c.toNat = 0x10000 + (n - 0xD800) * 0x400 + (m - 0xDC00) → Spells ('\\' :: 'u' :: (h ++ '\\' :: 'u' :: l)) c

/-- The inside of a string and the characters it stands for. -/
inductive Inside : List Char → List Char → Prop where
  | nil : Inside [] []
  | cons {t c r s} : Spells t c → Inside r s → Inside (t ++ r) (c :: s)

/-- `t` is a JSON string, with its quotation marks, that stands for `s`. -/
def Quoted (t s : List Char) : Prop := ∃ i, t = '"' :: (i ++ ['"']) ∧ Inside i s

/-- The inside of a string as the grammar has it: surrogates need not be paired. -/
inductive Loose : List Char → Prop where
  | nil : Loose []
  | plain {c r} : Plain c → Loose r → Loose (c :: r)
  | short {e c r} : (e, c) ∈ shortTable → Loose r → Loose ('\\' :: e :: r)
  | hex {h n r} : Hex4 h n → Loose r → Loose ('\\' :: 'u' :: (h ++ r))

/-- Some decimal digits, at least one. -/
def Digits (d : List Char) : Prop := d ≠ [] ∧ ∀ c ∈ d, c ∈ ['0', '1', '2', '3', '4', '5', '6', '7', '8', '9']

/-- A number (RFC 8259, section 6): minus, integer without zeros in front, decimals, exponent. -/
def Number (t : List Char) : Prop := ∃ sign int frac exp : List Char, t = sign ++ int ++ frac ++ exp ∧
  (sign = [] ∨ sign = ['-']) ∧
  (Digits int ∧ (int = ['0'] ∨ int.head? ≠ some '0')) ∧
  (frac = [] ∨ ∃ d, Digits d ∧ frac = '.' :: d) ∧
  (exp = [] ∨ ∃ e s d, Digits d ∧ (e = 'e' ∨ e = 'E') ∧ (s = [] ∨ s = ['+'] ∨ s = ['-']) ∧ exp = e :: (s ++ d))

mutual
/-- A JSON value without white space around it (RFC 8259, sections 3 to 7). -/
inductive Value : List Char → Prop where
  | null : Value ['n', 'u', 'l', 'l']
  | true : Value ['t', 'r', 'u', 'e']
  | false : Value ['f', 'a', 'l', 's', 'e']
  | number {t} : Number t → Value t
  | string {i} : Loose i → Value ('"' :: (i ++ ['"']))
  | array0 {w} : Ws w → Value ('[' :: (w ++ [']']))
  | array {t} : Items t → Value ('[' :: (t ++ [']']))
  | object0 {w} : Ws w → Value ('{' :: (w ++ ['}']))
  | object {t} : Fields t → Value ('{' :: (t ++ ['}']))
/-- Values with commas between them. -/
inductive Items : List Char → Prop where
  | one {a v b} : Ws a → Value v → Ws b → Items (a ++ (v ++ b))
  | more {a v b t} : Ws a → Value v → Ws b → Items t → Items (a ++ (v ++ (b ++ ',' :: t)))
/-- Fields with commas between them. -/
inductive Fields : List Char → Prop where
  | one {a i b c v d} : Ws a → Loose i → Ws b → Ws c → Value v → Ws d →
      Fields (a ++ '"' :: (i ++ '"' :: (b ++ ':' :: (c ++ (v ++ d)))))
  | more {a i b c v d t} : Ws a → Loose i → Ws b → Ws c → Value v → Ws d → Fields t →
      Fields (a ++ '"' :: (i ++ '"' :: (b ++ ':' :: (c ++ (v ++ (d ++ ',' :: t))))))
end

/-- The fields of an object: the name each stands for, and the text of its value. -/
inductive Members : List Char → List (List Char × List Char) → Prop where
  | one {a q k b c v d} : Ws a → Quoted q k → Ws b → Ws c → Value v → Ws d →
      Members (a ++ (q ++ (b ++ ':' :: (c ++ (v ++ d))))) [(k, v)]
  | more {a q k b c v d t l} : Ws a → Quoted q k → Ws b → Ws c → Value v → Ws d → Members t l →
      Members (a ++ (q ++ (b ++ ':' :: (c ++ (v ++ (d ++ ',' :: t)))))) ((k, v) :: l)

/-- The text is a JSON object in which exactly one field is named "command", and that is a string, the command `s`. -/
def ObjectForm (t s : List Char) : Prop := ∃ a m b l v, t = a ++ '{' :: (m ++ '}' :: b) ∧ Ws a ∧ Ws b ∧ Members m l ∧
  l.filter (fun kv => kv.1 = "command".toList) = [("command".toList, v)] ∧ Quoted v s

/-- The text is a JSON array whose only element is a string, the command `s`. -/
def ArrayForm (t s : List Char) : Prop := ∃ a b q c d, t = a ++ '[' :: (b ++ (q ++ (c ++ ']' :: d))) ∧ Ws a ∧ Ws b ∧ Ws c ∧ Ws d ∧ Quoted q s

end Verif.Request
