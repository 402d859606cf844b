import Verif.Model.Report
import Verif.Spec.Secrets

/-! # What an error report says, and what it may be made of

Specification vocabulary for C97. -/

namespace Verif.Report
open Verif Verif.Config

/-- The lines of a text. -/
def lines : Text → List Text
  | [] => [[]]
  | c :: t =>
    match lines t with
    | [] => [[]]
    | l :: ls => if c = '\n' then [] :: l :: ls else (c :: l) :: ls

/-- The parts of an error, the newest context first and the cause last, each with where it happened. -/
def Failure.story (e : Failure) : List (Text × Loc) := e.contexts.reverse ++ [(e.cause.text, e.loc)]

/-- A part, on a line: the message, and ` (at file:line)`. -/
def told (p : Text × Loc) : Text := p.1 ++ " (at ".toList ++ p.2.file ++ ":".toList ++ Nat.toDigits 10 p.2.line ++ ")".toList

/-- No message and no file name has a line break in it, and no file name an opening parenthesis. -/
def Failure.plain (e : Failure) : Prop := ∀ p ∈ e.story, '\n' ∉ p.1 ∧ '\n' ∉ p.2.file ∧ '(' ∉ p.2.file

/-- A secret's definition without what is secret: an inline secret's text is left out. -/
inductive Where where
  | file (path : List Char)
  | inline
  | env (var : String)

/-- The source without the secret. -/
def whereOf : Source → Where
  | .file p => .file p
  | .inline _ => .inline
  | .env v => .env v

/-- What of a definition a report may be made of: its name, the kind of its source with path or variable name, its
encoding, and its key-encryption reference. -/
structure Public where
  name : String
  place : Where
  base64 : Bool
  encryptedBy : Option String

/-- The public part of the definitions. -/
def publics (defs : List (String × SecretDef)) : List Public := defs.map fun p => ⟨p.1, whereOf p.2.source, p.2.base64, p.2.encryptedBy⟩

/-- What can be reported of a source that is not read. -/
def sourceReports (os : Os) (name : String) : Where → List Text
  | .file p => [
      "Invalid parameter error: secrets.".toList ++ chars name ++ ": failed to open '".toList ++ os.pathDebug p ++ "': ".toList ++
        os.openText p ++ " (at src/config/v2/secrets.rs:220)".toList,
      "Invalid parameter error: secrets.".toList ++ chars name ++ ": failed to stat '".toList ++ os.pathDebug p ++ "': ".toList ++
        os.statText p ++ " (at src/config/v2/secrets.rs:227)".toList,
      "Invalid parameter error: secrets.".toList ++ chars name ++
        ": regular file cannot be used as source unless danger_zone.allow_secret_over_regular_file is enabled. (at src/config/v2/secrets.rs:233)".toList,
      "secrets.".toList ++ chars name ++ ": failed to read '".toList ++ os.pathDebug p ++ "' (at src/config/v2/secrets.rs:245)\n  - caused by: I/O error: ".toList ++
        os.readText p ++ " (at src/error.rs:305)".toList]
  | .inline => ["Invalid parameter error: secrets.".toList ++ chars name ++
      ": inline secret source requires a KEK unless danger_zone.allow_inline_plaintext_secrets is enabled (at src/config/v2/secrets.rs:257)".toList]
  | .env v => [
      "Invalid parameter error: secrets.".toList ++ chars name ++
        ": source.env requires danger_zone.allow_env_secrets to be enabled (environment variables persist in /proc/PID/environ) (at src/config/v2/secrets.rs:269)".toList,
      "Invalid parameter error: secrets.".toList ++ chars name ++ ": failed to read environment variable '".toList ++ chars v ++ "': ".toList ++
        os.notPresent ++ " (at src/config/v2/secrets.rs:277)".toList]

/-- What can be reported of the key-encryption secret `k` of a secret. -/
def kekReports (os : Os) (name k : String) : List Text :=
  ("Invalid parameter error: secrets.".toList ++ chars name ++ ": missing KEK reference '".toList ++ chars k ++
      "' (at src/config/v2/secrets.rs:122)".toList) ::
    ["Failed to initialize cipher: ".toList ++ os.badKeyLength ++ " (at src/crypt/key.rs:145)".toList,
      "Failed to decrypt data: ciphertext is too short to include nonce and tag (at src/crypt/key.rs:157)".toList,
      "Failed to decrypt data: ".toList ++ os.badTag ++ " (at src/crypt/key.rs:174)".toList].map fun t =>
        "secrets.".toList ++ chars name ++ ": failed to decrypt using KEK '".toList ++ chars k ++
          "' (at src/config/v2/secrets.rs:169)\n  - caused by: Invalid parameter error: ".toList ++ t

/-- Every report that can be made without a secret, of the public part of one definition: each names the secret. -/
def oneReports (os : Os) (p : Public) : List Text :=
  sourceReports os p.name p.place ++
    (["Invalid parameter error: secrets.".toList ++ chars p.name ++
        ": secret data exceeds maximum allowed size of 8192 bytes (at src/config/v2/secrets.rs:209)".toList] ++
      (match p.encryptedBy with
        | none => []
        | some k => kekReports os p.name k))

/-- The report that names no secret: the references go round in a circle. -/
def circularReport : Text := "Invalid parameter error: circular secret references detected (at src/config/v2/secrets.rs:142)".toList

/-- The two reports that are made of what was found in the place of a secret `d` called `n`: the text base64 decoding gives for it, and
the text `std::env::var` gives for a variable that is not Unicode. -/
inductive Quotes (b : Box) (n : String) (d : SecretDef) : Text → Prop where
  | base64 {src stripped : Bytes} {s t : Text} : d.base64 = true → sourceText b.world d.source = some src →
      Stripped src stripped → b.b64 stripped = .error s →
      t = (match d.encryptedBy with
        | none => "secrets.".toList ++ chars n ++ ": failed to decode (at src/config/v2/secrets.rs:177)\n  - caused by: ".toList
        | some _ => []) ++ "Invalid parameter error: invalid base64: ".toList ++ s ++ " (at src/config/v2/secrets.rs:200)".toList → Quotes b n d t
  | envVar {v : String} {val : Bytes} {t : Text} : d.source = .env v → b.var v = some val → b.unicode val = false →
      t = "Invalid parameter error: secrets.".toList ++ chars n ++ ": failed to read environment variable '".toList ++ chars v ++ "': ".toList ++
        b.notUnicode val ++ " (at src/config/v2/secrets.rs:277)".toList → Quotes b n d t

end Verif.Report
