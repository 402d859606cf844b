import Verif.Model.Remote
import Verif.Model.Archive
import Mathlib.Logic.Function.Basic

/-! # The stripe shell

Models `/repo/src/bin/remote-stripe-shell.rs`: the commands, their arguments, the stripes kept, and what is printed. The
line editor and the command history are not modelled: a line is given as text. What counts as white space is a parameter
(the library's `char::is_whitespace`). -/

namespace Verif.Shell
open Verif Verif.Metadata Verif.Remote

/-- Text (remote-stripe-shell.rs:64). -/
abbrev Text := List Char

/-- What a command prints (remote-stripe-shell.rs:76-157); `panic` stands for a slice out of range or an overflow. -/
inductive Out where
  | nothing
  | help
  | missingArgument
  | invalidNumber (t : Text)
  | invalidStripe
  | header (h : UInt8) (written : Bool)
  | fetched
  | failed (e : CErr)
  | hex (t : Text)
  | invalidRange
  | notFetched
  | unknown (t : Text)
  | panic
deriving DecidableEq

/-- What a line asks for, after reading its arguments (remote-stripe-shell.rs:76-152). -/
inductive Act where
  | quit
  | header (k : Nat)
  | fetch (k : Nat)
  | dump (k off len : Nat)
  | say (o : Out)
deriving DecidableEq

/-- One character of a line, from the right: the word being read and the words after it (`trim` and `split_whitespace`,
library; remote-stripe-shell.rs:64, 73). -/
def wordStep (ws : Char → Bool) (c : Char) (r : Text × List Text) : Text × List Text :=
  if ws c then ([], if r.1 = [] then r.2 else r.1 :: r.2) else (c :: r.1, r.2)

/-- `line.trim()` and `split_whitespace` (remote-stripe-shell.rs:64, 73). -/
def words (ws : Char → Bool) (line : Text) : List Text :=
  let r := line.foldr (wordStep ws) ([], [])
  if r.1 = [] then r.2 else r.1 :: r.2

/-- The value of a decimal digit (library `char::to_digit`, in `parse`, remote-stripe-shell.rs:197). -/
def digit (c : Char) : Option Nat := if 48 ≤ c.toNat ∧ c.toNat ≤ 57 then some (c.toNat - 48) else none

/-- The digits of a number, with checked arithmetic (library `u64::from_str` and `usize::from_str`, both of 64 bits; called at
remote-stripe-shell.rs:197). -/
def digits : Nat → Text → Option Nat
  | acc, [] => some acc
  | acc, c :: cs =>
    match digit c with
    | none => none
    | some d => if acc * 10 + d < 2 ^ 64 then digits (acc * 10 + d) cs else none

/-- The plus sign in front of a number is dropped (library `u64::from_str`; remote-stripe-shell.rs:197). -/
def unsign : Text → Text
  | '+' :: r => r
  | r => r

/-- `value.parse::<T>()` for `u64` and `usize` (library; remote-stripe-shell.rs:197): an optional plus sign, and at least one
digit. -/
def number (t : Text) : Option Nat := if unsign t = [] then none else digits 0 (unsign t)

/-- `parse` (remote-stripe-shell.rs:189-204). -/
def arg : Option Text → Except Out Nat
  | none => .error .missingArgument
  | some t =>
    match number t with
    | none => .error (.invalidNumber t)
    | some n => .ok n

/-- `"exit"` (remote-stripe-shell.rs:77). -/
def exitName : Text := ['e', 'x', 'i', 't']
/-- `"quit"` (remote-stripe-shell.rs:77). -/
def quitName : Text := ['q', 'u', 'i', 't']
/-- `"help"` (remote-stripe-shell.rs:78). -/
def helpName : Text := ['h', 'e', 'l', 'p']
/-- `"stripe_header"` (remote-stripe-shell.rs:81). -/
def headerName : Text := ['s', 't', 'r', 'i', 'p', 'e', '_', 'h', 'e', 'a', 'd', 'e', 'r']
/-- `"fetch_stripe"` (remote-stripe-shell.rs:97). -/
def fetchName : Text := ['f', 'e', 't', 'c', 'h', '_', 's', 't', 'r', 'i', 'p', 'e']
/-- `"dump_stripe"` (remote-stripe-shell.rs:114). -/
def dumpName : Text := ['d', 'u', 'm', 'p', '_', 's', 't', 'r', 'i', 'p', 'e']

/-- The command named by the first word and its arguments (remote-stripe-shell.rs:76-157). Words beyond the arguments are
ignored. -/
def command (cmd : Text) (rest : List Text) : Act :=
  if cmd = exitName ∨ cmd = quitName then .quit
  else if cmd = helpName then .say .help
  else if cmd = headerName then
    match arg rest[0]? with
    | .ok k => .header k
    | .error o => .say o
  else if cmd = fetchName then
    match arg rest[0]? with
    | .ok k => .fetch k
    | .error o => .say o
  else if cmd = dumpName then
    match arg rest[0]?, arg rest[1]?, arg rest[2]? with
    | .ok k, .ok off, .ok len => .dump k off len
    | .error o, _, _ => .say o
    | _, .error o, _ => .say o
    | _, _, .error o => .say o
  else .say (.unknown cmd)

/-- A line (remote-stripe-shell.rs:64-76): an empty one is skipped. -/
def parseLine (ws : Char → Bool) (line : Text) : Act :=
  match words ws line with
  | [] => .say .nothing
  | cmd :: rest => command cmd rest

/-- The shell between two lines (remote-stripe-shell.rs:37-47): the stripes kept, what has arrived on the connection and has not
been read, and whether the shell has ended. -/
structure St where
  kept : Nat → Option Bytes
  inbox : List Bytes
  ended : Bool

/-- The shell after connecting (remote-stripe-shell.rs:37-47). -/
def St.init : St := ⟨fun _ => none, [], false⟩

/-- `saturating_add` (library; remote-stripe-shell.rs:135, 146). -/
def satAdd (a b : Nat) : Nat := min (a + b) (2 ^ 64 - 1)

/-- Which stripe a line asks the server for (remote-stripe-shell.rs:97-104, client.rs:133-141): `fetch_stripe` writes the request
for a stripe in range. -/
def wants (m : Meta) : Act → Option Nat
  | .fetch k => if k ≥ m.headers.length then none else some k
  | _ => none

/-- `dump_stripe` (remote-stripe-shell.rs:119-152). -/
def dump (m : Meta) (kept : Nat → Option Bytes) (k off len : Nat) : Out :=
  match m.headers[k]? with
  | none => .invalidStripe                                       -- stripe_idx_usize >= len
  | some h =>
    if !has h WRITTEN then
      if satAdd off len > stripeSize m then .invalidRange
      else .hex (Archive.hex (zeros len))
    else
      match kept k with
      | none => .notFetched
      | some data =>
        if satAdd off len > data.length then .invalidRange
        else if off + len ≥ 2 ^ 64 ∨ off + len > data.length then .panic    -- `offset + len`, `data[offset..end]`
        else .hex (Archive.hex ((data.drop off).take len))

/-- `stripe_header` (remote-stripe-shell.rs:81-96). -/
def showHeader (m : Meta) (k : Nat) : Out :=
  match m.headers[k]? with
  | none => .invalidStripe
  | some h => .header h (has h WRITTEN)

/-- One line (remote-stripe-shell.rs:76-157) on a connection to a server whose metadata are `m`, when `arrive` is what arrives on
the connection until the line is done. A read that runs out of bytes is a time-out (client.rs:143, 149, 166); the shell then prints
the error and goes on with the same connection. -/
def exec (m : Meta) (st : St) (a : Act) (arrive : List Bytes) : St × Out :=
  let st := { st with inbox := st.inbox ++ arrive }
  match a with
  | .quit => ({ st with ended := true }, .nothing)
  | .say o => (st, o)
  | .header k => (st, showHeader m k)
  | .dump k off len => (st, dump m st.kept k off len)
  | .fetch k =>
    if k ≥ m.headers.length then (st, .invalidStripe)
    else
      match clientFetch (some m) st.inbox with
      | (.ok data, rest) => ({ st with kept := Function.update st.kept k (some data), inbox := rest }, .fetched)
      | (.error e, rest) => ({ st with inbox := rest }, .failed e)

end Verif.Shell
