import Verif.Block.Model
import Verif.Annotations.Spec
/-!
# Specification of Aquascope blocks in Markdown
-/
namespace Verif.Block.Spec
open Verif.Annotations (bytes)
open Verif.Annotations.Spec (joinWith)

/-- A symbol: a text without `,`, `=`, `+` and newline. -/
def Sym (s : List Char) : Prop := ',' ∉ s ∧ '=' ∉ s ∧ '+' ∉ s ∧ '\n' ∉ s

/-- An option in the info line: `key=value`, or a bare `flag`. -/
inductive Opt
  | pair (k v : List Char)
  | flag (k : List Char)

/-- The option consists of symbols. -/
def Opt.Wf : Opt → Prop
  | .pair k v => Sym k ∧ Sym v
  | .flag k => Sym k

/-- How the option is written. -/
def Opt.text : Opt → List Char
  | .pair k v => k ++ '=' :: v
  | .flag k => k

/-- What the option means: a bare flag has the value `true`. -/
def Opt.meaning : Opt → List Char × List Char
  | .pair k v => (k, v)
  | .flag k => (k, "true".toList)

/-- The info line of a block. -/
def header (ops : List (List Char)) (opts : List Opt) : List Char :=
  ['`', '`', '`', 'a', 'q', 'u', 'a', 's', 'c', 'o', 'p', 'e', ','] ++ joinWith '+' ops ++ (opts.map fun o => ',' :: o.text).flatten

/-- The text of `body` is free of fences, also across its end: in `body` followed by a fence the
first fence is the one behind `body`. -/
def FenceFree (body : List Char) : Prop :=
  ∀ a b, body ++ ['`', '`', '`'] = a ++ ['`', '`', '`'] ++ b → body.length ≤ a.length

/-- What may follow the info line so that it ends where intended: normally a newline.  (The code
also accepts a stray `=` or `+`, which then belongs to the body; see DESIGN.md.) -/
def Follows (opts : List Opt) (body : List Char) : Prop :=
  ∃ c t, body = c :: t ∧
    (c = '\n' ∨
     (c = '+' ∧ opts ≠ []) ∨
     (c = '=' ∧ ∀ k, opts.getLast? ≠ some (.flag k)))

/-- White space: the characters with the Unicode property `White_Space`. -/
def Blank (c : Char) : Prop :=
  c.toNat ∈ [0x9, 0xA, 0xB, 0xC, 0xD, 0x20, 0x85, 0xA0, 0x1680, 0x2000, 0x2001, 0x2002, 0x2003, 0x2004,
    0x2005, 0x2006, 0x2007, 0x2008, 0x2009, 0x200A, 0x2028, 0x2029, 0x202F, 0x205F, 0x3000]

/-- `t` is the text `s` without the white space at both ends. -/
def Trimmed (s t : List Char) : Prop :=
  ∃ a b, s = a ++ t ++ b ∧ (∀ c ∈ a, Blank c) ∧ (∀ c ∈ b, Blank c) ∧
    (∀ c, t.head? = some c → ¬ Blank c) ∧ (∀ c, t.getLast? = some c → ¬ Blank c)

/-- `Scanned p doc found`: `doc` consists of gaps and recognised pieces, in this order.  `p` gives
for a text the length of the piece recognised at its beginning, with its contents.  Each element of
`found` is a gap, a piece and its contents; nothing is recognised inside a gap; `rest` is the text
behind the last piece. -/
inductive Scanned {β : Type} (p : List Char → Option (List Char × β)) :
    List Char → List (List Char × List Char × β) → List Char → Prop
  | done (s) (h : ∀ a b, s = a ++ b → p b = none) : Scanned p s [] s
  | found (gap piece rest b) (tl last)
      (hgap : ∀ x y, gap = x ++ y → y ≠ [] → p (y ++ piece ++ rest) = none)
      (hp : p (piece ++ rest) = some (rest, b))
      (h : Scanned p rest tl last) :
      Scanned p (gap ++ piece ++ rest) ((gap, piece, b) :: tl) last

/-- The byte ranges of the pieces, given where the text starts. -/
def ranges {β : Type} (pos : Nat) : List (List Char × List Char × β) → List ((Nat × Nat) × β)
  | [] => []
  | (gap, piece, b) :: tl =>
    let start := pos + bytes gap
    let stop := start + bytes piece
    ((start, stop), b) :: ranges stop tl

end Verif.Block.Spec
