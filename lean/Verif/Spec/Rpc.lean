import Verif.Model.Rpc

/-! # Reading JSON, and lines of text: the client's side -/

namespace Verif.Rpc
open Verif

/-- Value of a hexadecimal digit. -/
def hexVal (c : Char) : Option Nat :=
  if '0' ≤ c ∧ c ≤ '9' then some (c.toNat - 48)
  else if 'a' ≤ c ∧ c ≤ 'f' then some (c.toNat - 87)
  else if 'A' ≤ c ∧ c ≤ 'F' then some (c.toNat - 55)
  else none

/-- The character a one-letter escape stands for (RFC 8259, section 7). -/
def unesc (e : Char) : Option Char :=
  if e = '"' then some '"' else if e = '\\' then some '\\' else if e = '/' then some '/'
  else if e = 'b' then some (Char.ofNat 8) else if e = 'f' then some (Char.ofNat 12)
  else if e = 'n' then some (Char.ofNat 10) else if e = 'r' then some (Char.ofNat 13)
  else if e = 't' then some (Char.ofNat 9) else none

/-- The characters of a JSON string after its opening quotation mark, and what follows the closing one
(RFC 8259; `\u` escapes of surrogate pairs are not read, the server never writes them). -/
def readStr : Text → Option (Text × Text)
  | [] => none
  | c :: r =>
    if c = '"' then some ([], r)
    else if c = '\\' then
      match r with
      | e :: r =>
        if e = 'u' then
          match r with
          | a :: b :: d :: f :: r =>
            match hexVal a, hexVal b, hexVal d, hexVal f with
            | some a, some b, some d, some f =>
              (readStr r).map fun (s, t) => (Char.ofNat (4096 * a + 256 * b + 16 * d + f) :: s, t)
            | _, _, _, _ => none
          | _ => none
        else match unesc e with
          | some x => (readStr r).map fun (s, t) => (x :: s, t)
          | none => none
      | [] => none
    else if c.toNat < 32 then none
    else (readStr r).map fun (s, t) => (c :: s, t)

/-! A JSON value at the start of a text, and what follows it; no white space between tokens, numbers are natural
numbers. The first argument bounds the nesting. -/
mutual
def readVal : Nat → Text → Option (Json × Text)
  | 0, _ => none
  | f + 1, b =>
    match b with
    | [] => none
    | c :: r =>
      if c = 'n' then if r.take 3 = ['u', 'l', 'l'] then some (.null, r.drop 3) else none
      else if c = 't' then if r.take 3 = ['r', 'u', 'e'] then some (.bool true, r.drop 3) else none
      else if c = 'f' then if r.take 4 = ['a', 'l', 's', 'e'] then some (.bool false, r.drop 4) else none
      else if c = '"' then (readStr r).map fun (s, t) => (.str s, t)
      else if c = '[' then
        if r.head? = some ']' then some (.arr [], r.drop 1)
        else match readVal f r with
          | some (v, t) => (readItems f t).map fun (vs, t) => (.arr (v :: vs), t)
          | none => none
      else if c = '{' then
        if r.head? = some '}' then some (.obj [], r.drop 1)
        else match readField f r with
          | some (kv, t) => (readFields f t).map fun (fs, t) => (.obj (kv :: fs), t)
          | none => none
      else if c.isDigit then
        some (.num (Nat.ofDigitChars 10 ((c :: r).takeWhile Char.isDigit) 0), (c :: r).dropWhile Char.isDigit)
      else none
/-- the rest of an array -/
def readItems : Nat → Text → Option (List Json × Text)
  | 0, _ => none
  | f + 1, b =>
    match b with
    | [] => none
    | c :: r =>
      if c = ']' then some ([], r)
      else if c = ',' then
        match readVal f r with
        | some (v, t) => (readItems f t).map fun (vs, t) => (v :: vs, t)
        | none => none
      else none
/-- one field of an object -/
def readField : Nat → Text → Option ((Text × Json) × Text)
  | 0, _ => none
  | f + 1, b =>
    match b with
    | [] => none
    | c :: r =>
      if c = '"' then
        match readStr r with
        | some (k, t) => if t.head? = some ':' then (readVal f (t.drop 1)).map fun (v, t) => ((k, v), t) else none
        | none => none
      else none
/-- the rest of an object -/
def readFields : Nat → Text → Option (List (Text × Json) × Text)
  | 0, _ => none
  | f + 1, b =>
    match b with
    | [] => none
    | c :: r =>
      if c = '}' then some ([], r)
      else if c = ',' then
        match readField f r with
        | some (kv, t) => (readFields f t).map fun (fs, t) => (kv :: fs, t)
        | none => none
      else none
end

/-- The JSON value a text is. -/
def readJson (t : Text) : Option Json :=
  match readVal (t.length + 1) t with
  | some (v, []) => some v
  | _ => none

/-- The lines of a text in which every line ends with a newline; what follows the last newline is not a line. -/
def linesOf : Text → List Text
  | [] => []
  | c :: cs =>
    if c = '\n' then [] :: linesOf cs
    else if '\n' ∈ cs then
      match linesOf cs with
      | [] => [[c]]
      | l :: ls => (c :: l) :: ls
    else []

/-- A line a client sends: its characters and the bytes they are sent as, without the newline. -/
structure Line where
  bytes : Bytes
  text : Text

/-- The bytes decode to the text, with and without the newline, and contain no newline themselves. -/
def Line.ok (P : Params) (l : Line) : Prop :=
  (10 : UInt8) ∉ l.bytes ∧ P.utf8 (l.bytes ++ [10]) = some (l.text ++ ['\n']) ∧ P.utf8 l.bytes = some l.text

/-- White space, as Unicode defines it. -/
def white (c : Char) : Bool :=
  [0x9, 0xA, 0xB, 0xC, 0xD, 0x20, 0x85, 0xA0, 0x1680, 0x2000, 0x2001, 0x2002, 0x2003, 0x2004, 0x2005, 0x2006, 0x2007, 0x2008, 0x2009, 0x200A,
    0x2028, 0x2029, 0x202F, 0x205F, 0x3000].contains c.toNat

/-- Only white space. -/
def blank (t : Text) : Prop := ∀ c ∈ t, white c = true

instance (t : Text) : Decidable (blank t) := inferInstanceAs (Decidable (∀ c ∈ t, white c = true))

/-- An error response. -/
def isError (v : Json) : Prop := ∃ m, v = .obj [("error".toList, .str m)]

/-- What a good answer to request `t` is: an error for a request that does not parse or names no command, otherwise
the information asked for. -/
inductive Answers (P : Params) (st : Snap) (t : Text) (v : Json) : Prop where
  | malformed (e : Text) (h : P.parse t = .error e) (hv : isError v)
  | unknown (cmd : Text) (h : P.parse t = .ok cmd)
      (hc : cmd ≠ "version".toList ∧ cmd ≠ "status".toList ∧ cmd ≠ "queues".toList ∧ cmd ≠ "stats".toList) (hv : isError v)
  | version (h : P.parse t = .ok "version".toList) (hv : v = .obj [("version".toList, .str P.version)])
  | noStatus (h : P.parse t = .ok "status".toList) (hs : st.status = none) (hv : v = .obj [("status".toList, .null)])
  | status (h : P.parse t = .ok "status".toList) (total source fetched : Nat) (hs : st.status = some (total, source, fetched))
      (hv : v = .obj [("status".toList, .obj [("stripes".toList,
        .obj [("fetched".toList, .num fetched), ("source".toList, .num source), ("total".toList, .num total)])])])
  | queues (h : P.parse t = .ok "queues".toList) (qs : List Json) (hv : v = .obj [("queues".toList, .arr qs)])
      (hl : qs.length = st.trackers.length)
      (hq : ∀ (i : Nat) (k : Tracker.Trk), st.trackers[i]? = some k → ∃ ios : List Json, qs[i]? = some (Json.arr ios) ∧ ios.length = k.snapshot.length ∧
        ∀ (j : Nat) (kind : Tracker.Kind) (off len : Nat), k.snapshot[j]? = some (kind, off, len) →
          ios[j]? = some (Json.arr (match kind with
            | .read => [.str "read".toList, .num off, .num len]
            | .write => [.str "write".toList, .num off, .num len]
            | .flush => [.str "flush".toList])))
  | stats (h : P.parse t = .ok "stats".toList) (qs : List Json) (hv : v = .obj [("stats".toList, .obj [("queues".toList, .arr qs)])])
      (hl : qs.length = st.trackers.length)
      (hq : ∀ (i : Nat) (k : Tracker.Trk), st.trackers[i]? = some k → qs[i]? = some (Json.obj [("bytes_read".toList, .num k.bytesRead),
        ("bytes_written".toList, .num k.bytesWritten), ("flush_ops".toList, .num k.flushOps), ("read_ops".toList, .num k.readOps),
        ("write_ops".toList, .num k.writeOps)]))

end Verif.Rpc
