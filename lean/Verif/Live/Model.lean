import Verif.Cache.Text
import Verif.Serve.Model
import Verif.Wire.Analysis
import Verif.Frontend.Editor
/-!
# The playground and its server as bytes

The request that the editor sends (`callBackendWithCode`, `frontend/packages/aquascope-editor/src/lib.tsx:241-259`), how the
server reads it (`SingleFileRequest`, `crates/aquascope_serve/src/main.rs:58-62`, and the extractor `Json`,
`crates/aquascope_serve/src/server.rs:111-132`), the bytes of its answers (`ServerResponse`, `main.rs:64-69`; `Error`,
`main.rs:71-90`; `ErrorJson`, `main.rs:34-37`), and what the editor makes of them (`renderOperation`, `lib.tsx:294-308`).

Simplifications: strings of JavaScript are lists of characters (no half of a surrogate pair in the editor).  `JSON.stringify`
writes what `serde_json` writes, for these values; `axum::Json` uses `serde_json::from_slice` and `to_vec`.  HTTP carries the
bytes as they are, and the status is not looked at by the page.  A number in `config` is `null` for the model of the server
(`Serve.Json`), which only looks for a key.  The texts of errors of the operating system and of `serde_json` are parameters.
-/
namespace Verif.Live
open Verif.Preproc (Json)
open Verif.Wire (write read parse prop kCode kConfig)
open Verif.Cache (utf8 unutf8)
open Verif.Serve (Op Reply Response)

def kSuccess : List Char := ['s', 'u', 'c', 'c', 'e', 's', 's']
def kStdout : List Char := ['s', 't', 'd', 'o', 'u', 't']
def kStderr : List Char := ['s', 't', 'd', 'e', 'r', 'r']
def kError : List Char := ['e', 'r', 'r', 'o', 'r']
/-- server.rs:127 -/
def unableText : List Char := ['U', 'n', 'a', 'b', 'l', 'e', ' ', 't', 'o', ' ', 'd', 'e', 's', 'e', 'r', 'i', 'a', 'l', 'i', 'z', 'e', ' ', 'r', 'e', 'q', 'u', 'e', 's', 't', ':', ' ']
/-- main.rs:73-78 -/
def creatingText : List Char := ['C', 'r', 'e', 'a', 't', 'i', 'n', 'g', ' ', 't', 'h', 'e', ' ', 'c', 'o', 'n', 't', 'a', 'i', 'n', 'e', 'r', ' ', 'f', 'a', 'i', 'l', 'e', 'd', ' ']
def permissionsText : List Char := ['R', 'u', 'n', 'n', 'i', 'n', 'g', ' ', 'p', 'e', 'r', 'm', 'i', 's', 's', 'i', 'o', 'n', 's', ' ', 'a', 'n', 'a', 'l', 'y', 's', 'i', 's', ' ', 'f', 'a', 'i', 'l', 'e', 'd', ' ', ' ']
def interpreterText : List Char := ['R', 'u', 'n', 'n', 'i', 'n', 'g', ' ', 'i', 'n', 't', 'e', 'r', 'p', 'r', 'e', 't', 'e', 'r', ' ', 'f', 'a', 'i', 'l', 'e', 'd', ' ']

/-! ## The request -/

/-- `config`, if it is not `undefined`: `JSON.stringify` leaves out such a property. -/
def configField : Option Json → List (List Char × Json)
  | some c => [(kConfig, c)]
  | none => []

/-- The body of the request (lib.tsx:246-253). -/
def body (code : List Char) (config : Option Json) : List UInt8 := utf8 (write (.obj ((kCode, .str code) :: configField config)))

/-- `Option<Value>`: `null` is nothing. -/
def nonNull : Json → Option Json
  | .null => none
  | j => some j

/-- `Deserialize for SingleFileRequest`: an object in which `code` and `config` occur at most once, with other fields ignored,
or an array of the two values. -/
def asRequest : Json → Option (List Char × Option Json)
  | .obj fs =>
    match fs.filter (fun f => f.1 == kCode), fs.filter (fun f => f.1 == kConfig) with
    | [(_, .str c)], [] => some (c, none)
    | [(_, .str c)], [(_, v)] => some (c, nonNull v)
    | _, _ => none
  | .arr [.str c, v] => some (c, nonNull v)
  | _ => none

mutual
/-- The value as the model of the server has it. -/
def toServe : Json → Serve.Json
  | .null => .null
  | .bool b => .bool b
  | .num _ => .null
  | .str s => .str s
  | .arr xs => .arr (toServes xs)
  | .obj fs => .obj (toServeFields fs)
def toServes : List Json → List Serve.Json
  | [] => []
  | x :: xs => toServe x :: toServes xs
def toServeFields : List (List Char × Json) → List (List Char × Serve.Json)
  | [] => []
  | (k, v) :: fs => (k, toServe v) :: toServeFields fs
end

/-- What the extractor makes of the body (server.rs:121-123). -/
def readBody (bs : List UInt8) : Option Serve.Request :=
  ((unutf8 bs).bind parse).bind fun j => (asRequest j).map fun r => ⟨r.1, r.2.map toServe⟩

/-! ## The answer -/

/-- `Serialize for ServerResponse`. -/
def responseJson (r : Response) : Json := .obj [(kSuccess, .bool r.success), (kStdout, .str r.stdout), (kStderr, .str r.stderr)]

/-- `Display for Error`, with the text of the source. -/
def errorText (op : Op) (creating : Bool) (source : List Char) : List Char :=
  (if creating then creatingText else match op with | .permissions => permissionsText | .interpreter => interpreterText) ++ source

/-- The body of the answer; nothing if the connection is closed. `source`: the texts of the errors. -/
def sent (op : Op) (source : Serve.Error → List Char) : Reply → Option (List UInt8)
  | .ok r => some (utf8 (write (responseJson r)))
  | .error creating e => some (utf8 (errorText op creating (source e)))
  | .dropped => none

/-- The answer to a request that cannot be read, with the text of the rejection (server.rs:126-128). -/
def refusal (msg : List Char) : List UInt8 := utf8 (write (.obj [(kError, .str (unableText ++ msg))]))

/-! ## What the page makes of it -/

/-- `rejected`: an exception, nothing is shown; `stderr`: reported as standard error, nothing is drawn, `none` is
`undefined`; `response`: what is drawn, and what is reported as standard error. -/
inductive Seen
  | rejected
  | stderr (e : Option Json)
  | response (j : Json) (e : Option Json)

/-- `await serverResponseRaw.json()` and lib.tsx:294-308. -/
def look : Option (List UInt8) → Seen
  | none => .rejected
  | some bs =>
    match (unutf8 bs).bind read with
    | none => .rejected
    | some .null => .rejected
    | some j =>
      if Embed.falsy (prop j kSuccess) then .stderr (prop j kStderr)
      else
        match prop j kStdout with
        | some (.str s) =>
          match read s with
          | some v => .response v (prop j kStderr)
          | none => .rejected
        | _ => .rejected

/-- The reply in the sense of the model of the editor (lib.tsx:323-352). -/
def replyOf (op : Op) : Seen → Frontend.Editor.Reply
  | .rejected => .none
  | .stderr _ => .failed
  | .response j _ =>
    match op with
    | .interpreter =>
      match Embed.okIn j with
      | some (some _) => .ok
      | some none => .err
      | none => .none
    | .permissions =>
      match j with
      | .arr js => if (Embed.splitResults js).isSome then .ok else .none
      | _ => .none

end Verif.Live
