import Verif.Annotations.Model
/-!
# Specification of annotated code blocks

What an annotated block *means*, stated without reference to the parser: markers, the segmentation
of a line at its markers, the reading of a line, and the positions of state markers.
-/
namespace Verif.Annotations.Spec
open Verif.Annotations (Kind)

/-- The three kinds of markers and their brackets. -/
def brackets : Kind → Char × Char
  | .interp => ('[', ']')
  | .stepper => ('(', ')')
  | .boundaries => ('{', '}')

/-- `m` is a marker of kind `k` with contents `i`: a backtick, an opening bracket, contents without
the closing bracket, the closing bracket, a backtick. -/
def IsMarker (k : Kind) (i m : List Char) : Prop :=
  (brackets k).2 ∉ i ∧ m = '`' :: (brackets k).1 :: (i ++ [(brackets k).2, '`'])

/-- A marker begins at the front of `s`. -/
def MarkerHere (s : List Char) : Prop := ∃ k i m r, IsMarker k i m ∧ s = m ++ r

/-- One piece of an annotated line: plain text followed by a marker with its kind and contents. -/
abbrev Seg := List Char × Kind × List Char

/-- `Segmented l segs last`: line `l` is cut at its leftmost markers, left to right, into pieces
`segs` (text before the marker, kind, contents) and the remaining text `last`, which has none. -/
inductive Segmented : List Char → List Seg → List Char → Prop
  | done (l : List Char) (h : ∀ a b, l = a ++ b → ¬ MarkerHere b) : Segmented l [] l
  | mark (pre m rest : List Char) (k : Kind) (i : List Char) (segs : List Seg) (last : List Char)
      (hm : IsMarker k i m)
      (hleft : ∀ a b, pre = a ++ b → b ≠ [] → ¬ MarkerHere (b ++ m ++ rest))
      (htail : Segmented rest segs last) :
      Segmented (pre ++ m ++ rest) ((pre, k, i) :: segs) last

/-- How one source line is read. -/
inductive Reading
  | hidden (text : List Char)
  | escaped (text : List Char)
  | annotated (segs : List Seg) (last : List Char)

/-- A line beginning with `#` is hidden, one beginning with `\#` is escaped, every other line is
cut at its markers. -/
inductive Reads : List Char → Reading → Prop
  | hidden (t) : Reads ('#' :: t) (.hidden t)
  | escaped (t) : Reads ('\\' :: '#' :: t) (.escaped t)
  | annotated (l segs last) (h1 : ∀ t, l ≠ '#' :: t) (h2 : ∀ t, l ≠ '\\' :: '#' :: t)
      (h : Segmented l segs last) : Reads l (.annotated segs last)

/-- `Lined text ls`: `ls` are the lines of `text`; a line ends in `\n` or `\r\n`, which do not
belong to it, and a last line without terminator counts if it is not empty. -/
inductive Lined : List Char → List (List Char) → Prop
  | nil : Lined [] []
  | last (l) (hne : l ≠ []) (hn : '\n' ∉ l) : Lined l [l]
  | lf (l rest ls) (hn : '\n' ∉ l) (hr : l.getLast? ≠ some '\r') (h : Lined rest ls) :
      Lined (l ++ '\n' :: rest) (l :: ls)
  | crlf (l rest ls) (hn : '\n' ∉ l) (h : Lined rest ls) :
      Lined (l ++ '\r' :: '\n' :: rest) (l :: ls)

/-- The text a reading contributes to the cleaned program. -/
def Reading.cleaned : Reading → List Char
  | .hidden t => t
  | .escaped t => '#' :: t
  | .annotated segs last => (segs.map (·.1)).flatten ++ last

/-- The source line a reading stands for, with everything that was removed put back. -/
def Reading.source : Reading → List Char
  | .hidden t => '#' :: t
  | .escaped t => '\\' :: '#' :: t
  | .annotated segs last =>
    (segs.map fun s => s.1 ++ ('`' :: (brackets s.2.1).1 :: (s.2.2 ++ [(brackets s.2.1).2, '`']))).flatten
      ++ last

/-- Texts joined by a separator character. -/
def joinWith (sep : Char) : List (List Char) → List Char
  | [] => []
  | [l] => l
  | l :: ls => l ++ sep :: joinWith sep ls

/-- Cleaned text in front of each state marker of a line, in order; `acc` is what precedes. -/
def segPrefixes (acc : List Char) : List Seg → List (List Char)
  | [] => []
  | (p, k, _) :: t => (if k = .interp then [acc ++ p] else []) ++ segPrefixes (acc ++ p) t

/-- Cleaned text in front of each state marker of the line, counted from the start of the line. -/
def Reading.prefixes : Reading → List (List Char)
  | .annotated segs _ => segPrefixes [] segs
  | _ => []

/-- Cleaned text in front of each state marker of the whole block, in order of appearance. -/
def docPrefixes (acc : List Char) : List Reading → List (List Char)
  | [] => []
  | r :: rs => r.prefixes.map (acc ++ ·) ++ docPrefixes (acc ++ r.cleaned ++ ['\n']) rs

/-- `v` is the value given for option `key` in marker contents: the contents are a comma-separated
list of `key`, or `key:value`, entries (empty entries ignored) and the last entry for a key
counts. -/
def OptionIs (contents key value : List Char) : Prop :=
  ∃ before after : List (List Char), ∃ entry,
    contents = joinWith ',' (before ++ entry :: after) ∧
    (∀ e ∈ before ++ entry :: after, ',' ∉ e) ∧
    entry ≠ [] ∧
    Entry entry key value ∧ (∀ e ∈ after, e ≠ [] → ∀ v, ¬ Entry e key v)
where
  /-- An entry is `key` alone or `key:value` with no colon in the key. -/
  Entry (e key value : List Char) : Prop :=
    ':' ∉ key ∧ ((e = key ∧ value = []) ∨ e = key ++ ':' :: value)

end Verif.Annotations.Spec
