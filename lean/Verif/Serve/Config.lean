import Verif.Serve.Model
/-!
# Where the server listens and where the page asks

Models `Config::from_env` and `Config::socket_address` (`crates/aquascope_serve/src/main.rs:8-9,27-56`), the address of the
server that is put into the page (`frontend/packages/aquascope-standalone/vite.config.ts:4-9`,
`aquascope-standalone/src/index.tsx:92`, `aquascope-editor/src/lib.tsx:40,131-133`) and the address that a request of an
editor goes to (`lib.tsx:245-246`).

Simplifications.
* `str::parse` for `u16` and for `IpAddr` are those of the standard library.  What counts as an address of version 6 is a
  parameter.
* The parser of URLs of the browser is outside the model: a URL is given as its host, its port and the segments of its path;
  query and fragment are dropped, as `new URL(endpoint, base)` drops those of the base.
* `new URL(endpoint, base)` for the two endpoints, which are plain words.
* Which addresses the operating system lets the server have is left out.
-/
namespace Verif.Serve

/-- What `env::var` finds. -/
inductive Var
  | unset
  /-- not Unicode -/
  | garbled
  | text (t : Text)
  deriving DecidableEq, Repr

/-- `env::var(…).ok()` -/
def Var.get : Var → Option Text
  | .text t => some t
  | _ => none

/-- `char::to_digit(10)` -/
def digit (c : Char) : Option Nat := if '0' ≤ c ∧ c ≤ '9' then some (c.toNat - 48) else none

/-- The loop of `u16::from_str`: nothing at a character that is no digit, or on overflow. -/
def u16Digits : Nat → Text → Option Nat
  | n, [] => some n
  | n, c :: cs =>
    match digit c with
    | none => none
    | some d =>
      if n * 10 < 65536 then
        if n * 10 + d < 65536 then u16Digits (n * 10 + d) cs else none
      else none

/-- `u16::from_str`: a plus sign may come first; there is a digit. -/
def parseU16 : Text → Option Nat
  | [] => none
  | ['+'] => none
  | '+' :: cs => u16Digits 0 cs
  | cs => u16Digits 0 cs

/-- The digits of a number in an address of version 4 (`Parser::read_number(10, Some(3), false)`): one to three, without a
leading zero, below 256. -/
def octet (ds : Text) : Option Nat :=
  if ds.length = 0 ∨ 3 < ds.length then none
  else if ds.head? = some '0' ∧ 1 < ds.length then none
  else
    let n := ds.foldl (fun n c => n * 10 + (c.toNat - 48)) 0
    if n < 256 then some n else none

def isDigit (c : Char) : Bool := (digit c).isSome

/-- A number and what is behind it. -/
def readOctet (s : Text) : Option (Nat × Text) :=
  match octet (s.takeWhile isDigit) with
  | some n => some (n, s.dropWhile isDigit)
  | none => none

/-- A point and then a number. -/
def readDotOctet : Text → Option (Nat × Text)
  | '.' :: s => readOctet s
  | _ => none

/-- `Ipv4Addr::from_str`: four numbers with points between them, and nothing else. -/
def parseV4 (s : Text) : Option (Nat × Nat × Nat × Nat) := do
  let (a, s) ← readOctet s
  let (b, s) ← readDotOctet s
  let (c, s) ← readDotOctet s
  let (d, s) ← readDotOctet s
  if s = [] then some (a, b, c, d) else none

/-- `IpAddr`; an address of version 6 is given by its number. -/
inductive Ip
  | v4 (a b c d : Nat)
  | v6 (n : Nat)
  deriving DecidableEq, Repr

/-- `IpAddr::from_str` -/
def parseIp (v6 : Text → Option Nat) (s : Text) : Option Ip :=
  match parseV4 s with
  | some (a, b, c, d) => some (.v4 a b c d)
  | none => (v6 s).map .v6

/-- main.rs:8 -/
def defaultAddress : Text := ['1', '2', '7', '.', '0', '.', '0', '.', '1']
/-- main.rs:9 -/
def defaultPort : Nat := 8008

/-- `Config` (main.rs:27-31), without `no_docker`, which is always true. -/
structure Config where
  address : Text
  port : Nat
  deriving DecidableEq, Repr

/-- main.rs:39-51 -/
def Config.fromEnv (address port : Var) : Config :=
  ⟨address.get.getD defaultAddress, (port.get.bind parseU16).getD defaultPort⟩

/-- Where the server listens; `none`: it panics with `Invalid address` (main.rs:53-56). -/
def Config.socketAddress (v6 : Text → Option Nat) (c : Config) : Option (Ip × Nat) :=
  match parseIp v6 c.address with
  | none => none
  | some ip => some (ip, c.port)

/-- The server as it is started with two variables. -/
def listens (v6 : Text → Option Nat) (address port : Var) : Option (Ip × Nat) :=
  (Config.fromEnv address port).socketAddress v6

/-- A URL of scheme `http` (the path of `http://h` is that of `http://h/`: one empty segment). -/
structure Url where
  host : Ip
  port : Nat
  segments : List Text
  deriving DecidableEq, Repr

/-- The path of a request. -/
def Url.path (u : Url) : Text := u.segments.flatMap (fun s => '/' :: s)

/-- lib.tsx:40 and vite.config.ts:4 -/
def defaultUrl : Url := ⟨.v4 127 0 0 1, 8008, [[]]⟩

/-- The base of the requests of a page that was built with this value of `AQUASCOPE_SERVER` (vite.config.ts:4, `??`). -/
def pageBase : Option Url → Url
  | none => defaultUrl
  | some u => u

/-- The word that `renderOperation` is given for an operation. -/
def Op.word : Op → Text
  | .permissions => ['p', 'e', 'r', 'm', 'i', 's', 's', 'i', 'o', 'n', 's']
  | .interpreter => ['i', 'n', 't', 'e', 'r', 'p', 'r', 'e', 't', 'e', 'r']

/-- `new URL(endpoint, base)` for a word (lib.tsx:246): it takes the place of the last segment. -/
def Url.join (base : Url) (word : Text) : Url := { base with segments := base.segments.dropLast ++ [word] }

inductive Delivery
  /-- nobody listens there, or somebody else -/
  | elsewhere
  | routed (r : Routed)

/-- A request of the page and the server: it is posted to the joined address, and arrives if the server listens there. -/
def deliver (server : Option (Ip × Nat)) (base : Url) (op : Op) (req : Request) : Delivery :=
  let u := base.join op.word
  if server = some (u.host, u.port) then .routed (route .post u.path (some req)) else .elsewhere

end Verif.Serve
