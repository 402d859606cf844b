import Verif.Model.Tracker

/-! # The RPC server

Models `handle_client`, `process_request` and `send_response` of /repo/src/backends/common/rpc.rs and
`StatusReporter::report` of /repo/src/block_device/bdev_lazy/status_report.rs. Text is a list of characters; the
bytes on the socket are its UTF-8 encoding. serde_json's writer of `Value` is modelled; its parser of `RpcRequest` and
the UTF-8 decoder of `read_line` are parameters. -/

namespace Verif.Rpc
open Verif

/-- A `String`/`&str` (rpc.rs:37-39, 162), as its characters. -/
abbrev Text := List Char

/-- `serde_json::Value` as far as responses use it: numbers are `u64`; objects are lists in the order written
(`serde_json::Map` without `preserve_order` is sorted by key). -/
inductive Json where
  | null
  | bool (b : Bool)
  | num (n : Nat)
  | str (s : Text)
  | arr (vs : List Json)
  | obj (fs : List (Text × Json))

/-- One hexadecimal digit, lower case (library: serde_json's `\u00XX` escapes). -/
def hex (n : Nat) : Char := if n < 10 then Char.ofNat (48 + n) else Char.ofNat (87 + n)

/-- `format_escaped_str` of the library serde_json (used by rpc.rs:249): quotation mark, backslash and the control
characters below 0x20. -/
def esc (c : Char) : Text :=
  if c = '"' then ['\\', '"']
  else if c = '\\' then ['\\', '\\']
  else if c.toNat = 8 then ['\\', 'b']
  else if c.toNat = 9 then ['\\', 't']
  else if c.toNat = 10 then ['\\', 'n']
  else if c.toNat = 12 then ['\\', 'f']
  else if c.toNat = 13 then ['\\', 'r']
  else if c.toNat < 32 then ['\\', 'u', '0', '0', hex (c.toNat / 16), hex (c.toNat % 16)]
  else [c]

/-- A string as `serde_json::to_vec` (library; rpc.rs:249) writes it. -/
def serStr (s : Text) : Text := '"' :: (s.flatMap esc ++ ['"'])

/-! `serde_json::to_vec` of a `Value` (compact form). -/
mutual

/-- `serde_json::to_vec` of a `Value` (library; rpc.rs:249), compact form. -/
def ser : Json → Text
  | .null => ['n', 'u', 'l', 'l']
  | .bool true => ['t', 'r', 'u', 'e']
  | .bool false => ['f', 'a', 'l', 's', 'e']
  | .num n => Nat.toDigits 10 n
  | .str s => serStr s
  | .arr [] => ['[', ']']
  | .arr (v :: vs) => '[' :: (ser v ++ serItems vs)
  | .obj [] => ['{', '}']
  | .obj ((k, v) :: fs) => '{' :: (serStr k ++ ':' :: (ser v ++ serFields fs))
/-- The rest of an array after its first element (library serde_json; rpc.rs:249). -/
def serItems : List Json → Text
  | [] => [']']
  | v :: vs => ',' :: (ser v ++ serItems vs)
/-- The rest of an object after its first field (library serde_json; rpc.rs:249). -/
def serFields : List (Text × Json) → Text
  | [] => ['}']
  | (k, v) :: fs => ',' :: (serStr k ++ ':' :: (ser v ++ serFields fs))
end

/-- What a response reads from the running backend (`RpcState`, rpc.rs:30-34): the status report, if the device is
lazy, and the trackers of the queues. -/
structure Snap where
  status : Option (Nat × Nat × Nat)
  trackers : List Tracker.Trk

/-- `StatusReporter::report` (status_report.rs:42-50): total, source and fetched stripes. -/
def report (targetSectors stripeSectors source fetched : Nat) : Nat × Nat × Nat :=
  ((targetSectors + stripeSectors - 1) / stripeSectors, source, fetched)

/-- `json!({ "status": status })` of `StatusReport` (status_report.rs:4-14); the map is sorted by key. -/
def statusJson : Option (Nat × Nat × Nat) → Json
  | none => .null
  | some (total, source, fetched) =>
    .obj [("stripes".toList, .obj [("fetched".toList, .num fetched), ("source".toList, .num source), ("total".toList, .num total)])]

/-- `queue_snapshots` (rpc.rs:195-212). -/
def queueJson (t : Tracker.Trk) : Json :=
  .arr (t.snapshot.map fun (k, off, len) =>
    match k with
    | .read => .arr [.str "read".toList, .num off, .num len]
    | .write => .arr [.str "write".toList, .num off, .num len]
    | .flush => .arr [.str "flush".toList])

/-- The "stats" object of one queue (rpc.rs:225-242), sorted by key. -/
def statsJson (t : Tracker.Trk) : Json :=
  let (br, bw, ro, wo, fo) := t.stats
  .obj [("bytes_read".toList, .num br), ("bytes_written".toList, .num bw), ("flush_ops".toList, .num fo),
        ("read_ops".toList, .num ro), ("write_ops".toList, .num wo)]

/-- The parameters: the version string (rpc.rs:28), the parser of requests (`from_str::<RpcRequest>`, rpc.rs:174: the
command, or the text of the error) and the UTF-8 decoder of `read_line` (rpc.rs:166). -/
structure Params where
  version : Text
  parse : Text → Except Text Text
  utf8 : Bytes → Option Text

/-- `process_request` (rpc.rs:213-246). -/
def process (P : Params) (st : Snap) (cmd : Text) : Json :=
  if cmd = "version".toList then .obj [("version".toList, .str P.version)]
  else if cmd = "status".toList then .obj [("status".toList, statusJson st.status)]
  else if cmd = "queues".toList then .obj [("queues".toList, .arr (st.trackers.map queueJson))]
  else if cmd = "stats".toList then .obj [("stats".toList, .obj [("queues".toList, .arr (st.trackers.map statsJson))])]
  else .obj [("error".toList, .str ("unknown command: ".toList ++ cmd))]

/-- The `match` of `handle_client` (rpc.rs:174-179). -/
def answer (P : Params) (st : Snap) (line : Text) : Json :=
  match P.parse line with
  | .ok cmd => process P st cmd
  | .error e => .obj [("error".toList, .str ("invalid request: ".toList ++ e))]

/-- `char::is_whitespace` of the standard library (Unicode White_Space), as `trim` uses it (rpc.rs:169). -/
def isSpace (c : Char) : Bool :=
  let n := c.toNat
  (9 ≤ n && n ≤ 13) || n = 32 || n = 0x85 || n = 0xA0 || n = 0x1680 || (0x2000 ≤ n && n ≤ 0x200A) ||
    n = 0x2028 || n = 0x2029 || n = 0x202F || n = 0x205F || n = 0x3000

/-- `str::trim` of the standard library (rpc.rs:169). -/
def trim (s : Text) : Text := ((s.dropWhile isSpace).reverse.dropWhile isSpace).reverse

/-- What successive calls of `read_line` (rpc.rs:166) return on the bytes the client sends before it closes its side:
everything up to and including a newline, the last piece possibly without one (standard library). -/
def rawLines : Bytes → List Bytes
  | [] => []
  | b :: bs =>
    if b = 10 then [10] :: rawLines bs
    else match rawLines bs with
      | [] => [[b]]
      | l :: ls => (b :: l) :: ls

/-- The loop of `handle_client` (rpc.rs:164-191) with `send_response` (248-253): the texts sent. `w i` is what the
`i`-th answer finds in the backend, `sendOk i` whether it can be written. A failing write may still have sent a part;
the session is over then. A line that is not UTF-8 makes `read_line` fail, which ends the session. -/
def serve (P : Params) (w : Nat → Snap) (sendOk : Nat → Bool) : Nat → List Bytes → List Text
  | _, [] => []
  | i, l :: ls =>
    match P.utf8 l with
    | none => []
    | some line =>
      if trim line = [] then serve P w sendOk i ls
      else if sendOk i then (ser (answer P (w i) (trim line)) ++ ['\n']) :: serve P w sendOk (i + 1) ls
      else []

/-- A session (`handle_client`, rpc.rs:160-192): what the server sends for the bytes the client sends. -/
def session (P : Params) (w : Nat → Snap) (sendOk : Nat → Bool) (input : Bytes) : Text :=
  (serve P w sendOk 0 (rawLines input)).flatten

end Verif.Rpc
