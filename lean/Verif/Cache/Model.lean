/-!
# Model of the disk cache

Models `crates/mdbook-aquascope/src/cache.rs`.

* `HashMap<u64, V>` is a partial function on `UInt64`.
* The file is its contents and the position of the open handle; operating-system errors are crash
  points (an error makes `save` return early; `preprocessor.rs:190-192` then stops the process).
* The hash function (`DefaultHasher`) is a parameter.
* gzip + JSON are a parameter `Codec`: `Encodes m bs` says that `bs` is one of the byte strings that
  may be written for `m` (the iteration order of a `HashMap` is unspecified).
-/
namespace Verif.Cache

/-- `HashMap<u64, V>` (cache.rs:17). -/
abbrev HMap (V : Type) := UInt64 → Option V

/-- `HashMap::insert`. -/
def HMap.insert {V} (m : HMap V) (k : UInt64) (v : V) : HMap V :=
  fun k' => if k' = k then some v else m k'

/-- gzip and JSON as used by `load` and `save` (cache.rs:41-45, 68-72), with the assumptions on them:
a complete encoding is not empty and decodes to the map it was made from; a strict prefix of it
(the data of an interrupted write) is either rejected or still decodes to that map. -/
structure Codec (V : Type) where
  Encodes : HMap V → List UInt8 → Prop
  decode : List UInt8 → Option (HMap V)
  decode_encode : ∀ m bs, Encodes m bs → decode bs = some m
  decode_prefix : ∀ m bs p, Encodes m bs → p <+: bs → decode p = none ∨ decode p = some m
  encode_ne : ∀ m bs, Encodes m bs → bs ≠ []

/-- An open file: contents and cursor. -/
structure File where
  data : List UInt8
  pos : Nat
  deriving DecidableEq, Repr

/-- System calls on the file made by `save`. -/
inductive FsOp
  | setLen (n : Nat)
  | rewind
  | write (bs : List UInt8)
  deriving Repr

/-- Effect of a system call: `ftruncate` keeps the cursor and pads with zeros, `write` writes at the
cursor (padding a hole with zeros) and advances it. -/
def FsOp.run (f : File) : FsOp → File
  | .setLen n => { f with data := f.data.take n ++ List.replicate (n - f.data.length) 0 }
  | .rewind => { f with pos := 0 }
  | .write bs =>
    { data := f.data.take f.pos ++ List.replicate (f.pos - f.data.length) 0 ++ bs ++
        f.data.drop (f.pos + bs.length),
      pos := f.pos + bs.length }

/-- The system calls of `save` when dirty (cache.rs:66-73): truncate, rewind, then the encoder writes
its output in some chunks.  (`flush` on a `File` does nothing.) -/
def saveOps (chunks : List (List UInt8)) : List FsOp :=
  [.setLen 0, .rewind] ++ chunks.map .write

/-- `Cache` (cache.rs:15-20). -/
structure Cache (V : Type) where
  file : File
  map : HMap V
  dirty : Bool

variable {V : Type}

/-- `Cache::load` on a file with contents `data` (cache.rs:31-53); `pos` is where the decoder leaves
the cursor.  An undecodable file gives an empty cache with a warning. -/
def load (c : Codec V) (data : List UInt8) (pos : Nat) : Cache V :=
  { file := { data, pos },
    map := if data.length = 0 then fun _ => none
           else match c.decode data with
             | some m => m
             | none => fun _ => none,
    dirty := false }

/-- `Cache::get` (cache.rs:55-57). -/
def Cache.get {K} (hash : K → UInt64) (c : Cache V) (k : K) : Option V := c.map (hash k)

/-- `Cache::set` (cache.rs:59-62). -/
def Cache.set {K} (hash : K → UInt64) (c : Cache V) (k : K) (v : V) : Cache V :=
  { c with map := c.map.insert (hash k) v, dirty := true }

/-- `Cache::save` (cache.rs:64-76), where the encoder emits `chunks`. -/
def Cache.save (c : Cache V) (chunks : List (List UInt8)) : Cache V :=
  if c.dirty then { c with file := (saveOps chunks).foldl FsOp.run c.file } else c

/-- File contents left behind when the process stops during `save`: some of the system calls have
been made, and the next one, if it is a write, may have been made partially. -/
inductive Crashed (f : File) (ops : List FsOp) : List UInt8 → Prop
  | between (done rest) (h : ops = done ++ rest) : Crashed f ops (done.foldl FsOp.run f).data
  | during (done rest bs part) (h : ops = done ++ .write bs :: rest) (hp : part <+: bs) :
      Crashed f ops (FsOp.run (done.foldl FsOp.run f) (.write part)).data

end Verif.Cache
