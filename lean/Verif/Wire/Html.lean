import Verif.Wire.Json
/-!
# The element of a block as text

The element that the preprocessor puts into the chapter (`crates/mdbook-aquascope/src/preprocessor.rs:149-172`), as text, and
what the page finds in it (`frontend/packages/aquascope-embed/src/main.tsx:176-250`).  `HtmlElementBuilder` of
`mdbook_preprocessor_utils` and `encode_double_quoted_attribute` of `html_escape` are stated from memory, and so is the part of
the HTML syntax that is needed to read a start tag with quoted attributes.

Simplifications: other character references than the four that the writer makes stand for themselves; a start tag with an
attribute without value, or with a value in other quotes or none, is refused.  Between the two the book builder passes the
element through Markdown, which leaves a line of HTML alone; `C115_one_line` says that the element is one line.
-/
namespace Verif.Wire
open Verif.Preproc (Json)

/-! ## Writing -/

/-- `encode_double_quoted_attribute` (html_escape), one character. -/
def encodeChar (c : Char) : List Char :=
  if c = '&' then ['&', 'a', 'm', 'p', ';']
  else if c = '<' then ['&', 'l', 't', ';']
  else if c = '>' then ['&', 'g', 't', ';']
  else if c = '"' then ['&', 'q', 'u', 'o', 't', ';']
  else [c]

/-- One attribute, with a space before it. -/
def writeAttr (a : List Char × List Char) : List Char :=
  ' ' :: (a.1 ++ '=' :: '"' :: (a.2.flatMap encodeChar ++ ['"']))

/-- `</div>`. -/
def closeTag : List Char := ['<', '/', 'd', 'i', 'v', '>']

/-- `HtmlElementBuilder::finish`. -/
def writeElement (attrs : List (List Char × List Char)) : List Char :=
  '<' :: 'd' :: 'i' :: 'v' :: (attrs.flatMap writeAttr ++ '>' :: closeTag)

/-- "data-". -/
def kData : List Char := ['d', 'a', 't', 'a', '-']

/-- `HtmlElementBuilder::data`. -/
def dataAttr (key : List Char) (j : Json) : List Char × List Char := (kData ++ key, write j)

/-! ## Reading -/

/-- What follows the opening quote of an attribute value: the value, and what follows the closing quote. -/
def readAttrValue : List Char → Option (List Char × List Char)
  | [] => none
  | '"' :: r => some ([], r)
  | '&' :: 'a' :: 'm' :: 'p' :: ';' :: r => (readAttrValue r).map fun x => ('&' :: x.1, x.2)
  | '&' :: 'l' :: 't' :: ';' :: r => (readAttrValue r).map fun x => ('<' :: x.1, x.2)
  | '&' :: 'g' :: 't' :: ';' :: r => (readAttrValue r).map fun x => ('>' :: x.1, x.2)
  | '&' :: 'q' :: 'u' :: 'o' :: 't' :: ';' :: r => (readAttrValue r).map fun x => ('"' :: x.1, x.2)
  | c :: r => (readAttrValue r).map fun x => (c :: x.1, x.2)

/-- White space of HTML. -/
def isSpace (c : Char) : Bool := c == ' ' || c == '\t' || c == '\n' || c.toNat == 12 || c == '\r'

/-- The characters that end the name of an attribute. -/
def endsName (c : Char) : Bool := isSpace c || c == '/' || c == '>' || c == '='

/-- The attributes of a start tag, to its end; the number bounds their count. -/
def readAttrs : Nat → List Char → Option (List (List Char × List Char) × List Char)
  | 0, _ => none
  | n + 1, s =>
    match s.dropWhile isSpace with
    | '>' :: r => some ([], r)
    | r =>
      match r.dropWhile (fun c => !endsName c) with
      | '=' :: '"' :: v =>
        match readAttrValue v with
        | none => none
        | some (value, r') =>
          (readAttrs n r').map fun y => ((r.takeWhile (fun c => !endsName c), value) :: y.1, y.2)
      | _ => none

/-- The attributes of a `div`. -/
def readElement : List Char → Option (List (List Char × List Char))
  | '<' :: 'd' :: 'i' :: 'v' :: r => (readAttrs (r.length + 1) r).map (·.1)
  | _ => none

/-- The rest of the name of a data attribute as a property of `dataset`: a dash and a small letter become a capital. -/
def camel : List Char → List Char
  | '-' :: c :: r => if c.isLower then c.toUpper :: camel r else '-' :: camel (c :: r)
  | c :: r => c :: camel r
  | [] => []

/-- `elem.dataset[key]`.  The first of several attributes of the same name counts. -/
def dataset (attrs : List (List Char × List Char)) (key : List Char) : Option (List Char) :=
  (attrs.find? fun a => kData.isPrefixOf a.1 && camel (a.1.drop 5) == key).map (·.2)

/-- `maybeParseJson` (main.tsx:181-182): `none` an exception, `some none` is `undefined`. -/
def maybeParse : Option (List Char) → Option (Option Json)
  | none => some none
  | some [] => some none
  | some s => (read s).map some

end Verif.Wire
