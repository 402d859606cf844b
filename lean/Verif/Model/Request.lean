import Verif.Model.Rpc

/-! # Requests of the RPC server as text

Models `serde_json::from_str::<RpcRequest>` (/repo/src/backends/common/rpc.rs:174, the derived `Deserialize` of
rpc.rs:36-39; library serde_json 1.0.151) and the decoding of a line (rpc.rs:166), which are parameters of `Rpc.Params`. The
library works on bytes; all tokens are ASCII, so characters are read here. Only whether a request is accepted and which
command it names is modelled, the words of an error are a parameter. The library skips the value of an unknown field with a loop
and a stack of its own (`ignore_value`); here that is a recursion whose first argument is larger than any depth the text can have. -/

namespace Verif.Request
open Verif Verif.Rpc

/-- White space of JSON (library: `parse_whitespace`; rpc.rs:174). -/
def isWs (c : Char) : Bool := c = ' ' || c = '\n' || c = '\t' || c = '\r'

/-- `parse_whitespace` (library; rpc.rs:174). -/
def skip (t : Text) : Text := t.dropWhile isWs

/-- A decimal digit (library: `b'0'..=b'9'`; rpc.rs:174). -/
def isDig (c : Char) : Bool := 48 ≤ c.toNat && c.toNat ≤ 57

/-- The value of a hexadecimal digit (library: `decode_hex_escape`; rpc.rs:174). -/
def hexDigit (c : Char) : Option Nat :=
  if 48 ≤ c.toNat ∧ c.toNat ≤ 57 then some (c.toNat - 48)
  else if 97 ≤ c.toNat ∧ c.toNat ≤ 102 then some (c.toNat - 87)
  else if 65 ≤ c.toNat ∧ c.toNat ≤ 70 then some (c.toNat - 55)
  else none

/-- Four hexadecimal digits (library: `decode_hex_escape`; rpc.rs:174). -/
def hex4 : Text → Option (Nat × Text)
  | a :: b :: c :: d :: r =>
    (hexDigit a).bind fun a => (hexDigit b).bind fun b => (hexDigit c).bind fun c => (hexDigit d).bind fun d =>
      some (4096 * a + 256 * b + 16 * c + d, r)
  | _ => none

/-- The escapes of one letter (library: `parse_escape`; rpc.rs:174). -/
def short (e : Char) : Option Char :=
  if e = '"' then some '"'
  else if e = '\\' then some '\\'
  else if e = '/' then some '/'
  else if e = 'b' then some (Char.ofNat 8)
  else if e = 'f' then some (Char.ofNat 12)
  else if e = 'n' then some (Char.ofNat 10)
  else if e = 'r' then some (Char.ofNat 13)
  else if e = 't' then some (Char.ofNat 9)
  else none

/-- `parse_unicode_escape` with validation, behind the `\u` (library; rpc.rs:174): a surrogate must be the first of a pair. -/
def uni (t : Text) : Option (Char × Text) :=
  (hex4 t).bind fun (n, r) =>
    if 0xDC00 ≤ n ∧ n ≤ 0xDFFF then none
    else if n < 0xD800 ∨ 0xDBFF < n then some (Char.ofNat n, r)
    else if r.take 2 = ['\\', 'u'] then
      (hex4 (r.drop 2)).bind fun (m, r) =>
        if m < 0xDC00 ∨ 0xDFFF < m then none
        else some (Char.ofNat ((n - 0xD800) * 1024 + (m - 0xDC00) + 0x10000), r)
    else none

/-- One character of a string, which is not the closing quotation mark (library: `parse_str`, `parse_escape`; rpc.rs:174). -/
def unit : Text → Option (Char × Text)
  | [] => none
  | c :: r =>
    if c = '\\' then
      match r with
      | [] => none
      | e :: r => if e = 'u' then uni r else (short e).map fun x => (x, r)
    else if c.toNat < 32 then none
    else some (c, r)

/-- `parse_str` (library; rpc.rs:174), behind the opening quotation mark: the characters and what follows the closing
one. The first argument is at least the number of characters. -/
def str : Nat → Text → Option (Text × Text)
  | 0, _ => none
  | _ + 1, [] => none
  | f + 1, c :: r =>
    if c = '"' then some ([], r)
    else (unit (c :: r)).bind fun (x, r) => (str f r).map fun (s, r) => (x :: s, r)

/-- One character of a string that is skipped (library: `ignore_str`, `ignore_escape`; rpc.rs:174): any four digits will do. -/
def unitIgn : Text → Option Text
  | [] => none
  | c :: r =>
    if c = '\\' then
      match r with
      | [] => none
      | e :: r => if e = 'u' then (hex4 r).map Prod.snd else (short e).map fun _ => r
    else if c.toNat < 32 then none
    else some r

/-- `ignore_str` (library; rpc.rs:174), behind the opening quotation mark. -/
def strIgn : Nat → Text → Option Text
  | 0, _ => none
  | _ + 1, [] => none
  | f + 1, c :: r => if c = '"' then some r else (unitIgn (c :: r)).bind fun r => strIgn f r

/-- At least one digit, as many as there are (library: `ignore_decimal`, `ignore_exponent`; rpc.rs:174). -/
def digits : Text → Option Text
  | [] => none
  | c :: r => if isDig c then some (r.dropWhile isDig) else none

/-- `ignore_exponent` (library; rpc.rs:174), behind the `e`. -/
def expo : Text → Option Text
  | [] => none
  | c :: r => if c = '+' ∨ c = '-' then digits r else digits (c :: r)

/-- An exponent, if there is one (library: `ignore_number`; rpc.rs:174). -/
def optExpo : Text → Option Text
  | [] => some []
  | c :: r => if c = 'e' ∨ c = 'E' then expo r else some (c :: r)

/-- Decimals, if there are any, and an exponent (library: `ignore_number`; rpc.rs:174). -/
def frac : Text → Option Text
  | [] => some []
  | c :: r => if c = '.' then (digits r).bind optExpo else optExpo (c :: r)

/-- `ignore_integer` and what may follow (library; rpc.rs:174): no zeros in front. -/
def num : Text → Option Text
  | [] => none
  | c :: r =>
    if c = '0' then
      match r with
      | [] => some []
      | d :: r => if isDig d then none else frac (d :: r)
    else if isDig c then frac (r.dropWhile isDig)
    else none

/-- `parse_ident` (library; rpc.rs:174). -/
def word (w t : Text) : Option Text := if t.take w.length = w then some (t.drop w.length) else none

/-- The end of a string in quotation marks that is skipped, and the colon behind it (library: `ignore_value`; rpc.rs:174). -/
def keyIgn (t : Text) : Option Text :=
  match skip t with
  | [] => none
  | c :: r =>
    if c = '"' then (strIgn (r.length + 1) r).bind fun r =>
      match skip r with
      | [] => none
      | c :: r => if c = ':' then some r else none
    else none

mutual
/-- `ignore_value` (library; rpc.rs:174). -/
def val : Nat → Text → Option Text
  | 0, _ => none
  | f + 1, t =>
    match skip t with
    | [] => none
    | c :: r =>
      if c = '"' then strIgn (r.length + 1) r
      else if c = '[' then
        match skip r with
        | [] => none
        | d :: r' => if d = ']' then some r' else items f r
      else if c = '{' then
        match skip r with
        | [] => none
        | d :: r' => if d = '}' then some r' else fields f r
      else if c = 'n' then word ['u', 'l', 'l'] r
      else if c = 't' then word ['r', 'u', 'e'] r
      else if c = 'f' then word ['a', 'l', 's', 'e'] r
      else if c = '-' then num r
      else if isDig c then num (c :: r)
      else none
/-- The elements of an array that is skipped, from the next one (library: `ignore_value`; rpc.rs:174). -/
def items : Nat → Text → Option Text
  | 0, _ => none
  | f + 1, t => (val f t).bind fun r =>
    match skip r with
    | [] => none
    | c :: r => if c = ',' then items f r else if c = ']' then some r else none
/-- The fields of an object that is skipped, from the next one (library: `ignore_value`; rpc.rs:174). -/
def fields : Nat → Text → Option Text
  | 0, _ => none
  | f + 1, t => (keyIgn t).bind fun r => (val f r).bind fun r =>
    match skip r with
    | [] => none
    | c :: r => if c = ',' then fields f r else if c = '}' then some r else none
end

/-- A `String` (library: `deserialize_string`; rpc.rs:38): the value must be a string. -/
def strVal (t : Text) : Option (Text × Text) :=
  match skip t with
  | [] => none
  | c :: r => if c = '"' then str (r.length + 1) r else none

/-- `visit_map` of the derived `Deserialize` (rpc.rs:36-39), from the next field: `command` is read once, other fields are
skipped. Returns the command, if there was one, and what follows the object. -/
def members : Nat → Option Text → Text → Option (Option Text × Text)
  | 0, _, _ => none
  | f + 1, cmd, t => (strVal t).bind fun (k, r) =>
    match skip r with
    | [] => none
    | c :: r =>
      if c = ':' then
        (if k = "command".toList then
          (if cmd.isSome then none else (strVal r).map fun (s, r) => (some s, r))
        else (val (r.length + 2) r).map fun r => (cmd, r)).bind fun (cmd, r) =>
          match skip r with
          | [] => none
          | c :: r => if c = ',' then members f cmd r else if c = '}' then some (cmd, r) else none
      else none

/-- `deserialize_struct` (library; rpc.rs:36-39, 174): an object, or an array with the values of the fields in their order. -/
def struct (t : Text) : Option (Text × Text) :=
  match skip t with
  | [] => none
  | c :: r =>
    if c = '[' then (strVal r).bind fun (s, r) =>
      match skip r with
      | [] => none
      | c :: r => if c = ']' then some (s, r) else none
    else if c = '{' then
      match skip r with
      | [] => none
      | d :: _ =>
        if d = '}' then none
        else (members (r.length + 1) none r).bind fun (cmd, r) => cmd.map fun s => (s, r)
    else none

/-- `serde_json::from_str::<RpcRequest>` (rpc.rs:174): the command of the request; nothing but white space may follow it. -/
def request (t : Text) : Option Text :=
  (struct t).bind fun (s, r) => if skip r = [] then some s else none

/-- The decoding of a line (standard library; rpc.rs:166). -/
def utf8 (b : Bytes) : Option Text := (ByteArray.utf8Decode? b.toByteArray).map Array.toList

/-- The parameters of the server with this reading of requests (rpc.rs:28, 166, 174); `words` are the words of an error. -/
def params (version : Text) (words : Text → Text) : Params where
  version := version
  parse := fun t => match request t with
    | some s => .ok s
    | none => .error (words t)
  utf8 := utf8

end Verif.Request
