import Verif.Cache.Model
import Verif.Wire.Page
/-!
# The contents of the cache file

`serde_json::to_writer` of the entries into the gzip encoder and `serde_json::from_reader` from the gzip decoder
(`crates/mdbook-aquascope/src/cache.rs:41-45, 66-71`), for the values that the preprocessor stores, texts
(`crates/mdbook-aquascope/src/preprocessor.rs:24`).  `Cache/Model` has both as a parameter `Codec` with three assumptions;
here the parameter is made out of the JSON of `Wire/Json`, UTF-8 and gzip, and the assumptions become theorems
(`Cache/TextProps`).

Simplifications: gzip is a parameter (`Gzip`) with weaker assumptions, about bytes only.  A key is written by `serde_json` as a
string that holds its digits and read with the reader of numbers; a key with a leading zero, which no writer makes, is refused
here, as `serde_json` does since it reads keys as numbers.  The reader of `serde_json` works on bytes and looks at UTF-8 only
within strings; bytes outside strings that are not ASCII are refused by either.
-/
namespace Verif.Cache
open Verif.Preproc (Json)
open Verif.Wire (write read)

abbrev Text := List Char

/-- The entries of the `HashMap` in the order in which it is traversed. -/
abbrev Listing := List (UInt64 × Text)

/-- The map with these entries; of two entries with the same key the later one counts (`HashMap::insert` in the visitor of
serde). -/
def toMap (l : Listing) : HMap Text := l.foldl (fun m e => m.insert e.1 e.2) fun _ => none

/-- `Serialize for HashMap<u64, String>`: an object whose keys are the digits. -/
def entriesJson (l : Listing) : Json := .obj (l.map fun e => (Nat.toDigits 10 e.1.toNat, .str e.2))

/-- `MapKey::deserialize_u64`: a number without sign, in digits, below 2⁶⁴. -/
def asKey (k : Text) : Option UInt64 :=
  if Wire.isNumber k && k.all Char.isDigit then
    let n := Nat.ofDigitChars 10 k 0
    if n < 18446744073709551616 then some (UInt64.ofNat n) else none
  else none

/-- One entry. -/
def asCacheEntry (f : Text × Json) : Option (UInt64 × Text) :=
  match asKey f.1, f.2 with
  | some k, .str v => some (k, v)
  | _, _ => none

/-- `Deserialize for HashMap<u64, String>`. -/
def asEntries : Json → Option Listing
  | .obj fs => fs.mapM asCacheEntry
  | _ => none

/-- The bytes of a text. -/
def utf8 (s : Text) : List UInt8 := s.flatMap String.utf8EncodeChar

/-- The text of bytes, if they are UTF-8. -/
def unutf8 (bs : List UInt8) : Option Text := bs.toByteArray.utf8Decode?.map Array.toList

/-- `serde_json::to_writer(&mut encoder, &self.cache)` (cache.rs:70), as bytes. -/
def entriesBytes (l : Listing) : List UInt8 := utf8 (write (entriesJson l))

/-- `serde_json::from_reader(&mut decoder)` (cache.rs:42), where the decoder gives these bytes and then the end of the data or
an error. -/
def readEntries (given : List UInt8 × Bool) : Option (HMap Text) :=
  if given.2 then (((unutf8 given.1).bind read).bind asEntries).map toMap else none

/-- gzip: what the encoder may write for bytes (`Compression::best` fixes it, the chunks do not matter) and what the decoder
gives for the bytes of a file, and whether it then ends without error.  Assumptions: a complete stream gives back the bytes
that went in, the beginning of a stream gives a beginning of them, and a stream is not empty. -/
structure Gzip where
  zip : List UInt8 → List UInt8 → Prop
  unzip : List UInt8 → List UInt8 × Bool
  unzip_zip : ∀ x z, zip x z → unzip z = (x, true)
  unzip_prefix : ∀ x z p, zip x z → p <+: z → (unzip p).1 <+: x
  zip_ne : ∀ x z, zip x z → z ≠ []

/-- The bytes that `save` may write for the entries: any order. -/
def Writes (g : Gzip) (m : HMap Text) (bs : List UInt8) : Prop :=
  ∃ l : Listing, (l.map (·.1)).Nodup ∧ (∀ k, m k = (l.find? fun e => e.1 == k).map (·.2)) ∧ g.zip (entriesBytes l) bs

/-- What `load` makes of the bytes of the file. -/
def reads (g : Gzip) (bs : List UInt8) : Option (HMap Text) := readEntries (g.unzip bs)

end Verif.Cache
