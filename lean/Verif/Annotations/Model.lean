/-!
# Model of the annotation parser of code blocks

Models `crates/mdbook-aquascope/src/annotations.rs`.

Strings are lists of characters (`&str` is a sequence of Unicode scalar values); `str::len` is the
number of UTF-8 bytes, modelled by `bytes`.
-/
namespace Verif.Annotations

/-- `str::len` of the string: the number of UTF-8 bytes (used by `add_fragment!`,
annotations.rs:94). -/
def bytes (s : List Char) : Nat := (s.map Char.utf8Size).sum

/-- The three marker kinds, annotations.rs:64-66. -/
inductive Kind | interp | stepper | boundaries
  deriving DecidableEq, Repr

/-- Second character of the opening delimiter, annotations.rs:64-66. -/
def Kind.opening : Kind → Char
  | .interp => '['
  | .stepper => '('
  | .boundaries => '{'

/-- First character of the closing delimiter, annotations.rs:64-66. -/
def Kind.closing : Kind → Char
  | .interp => ']'
  | .stepper => ')'
  | .boundaries => '}'

/-- The alternative of the regular expression selected by the character after the backtick
(annotations.rs:68-80; `match_type` at 107-113). -/
def Kind.ofChar (c : Char) : Option Kind :=
  if c = '[' then some .interp
  else if c = '(' then some .stepper
  else if c = '{' then some .boundaries
  else none

/-- Match of the regular expression at the beginning of `s` (annotations.rs:68-80): a backtick, an
opening character, a longest run of characters that are not the closing character, the closing
character, a backtick.  Returns the kind, the capture and the text behind the match.  Since the
class excludes the closing character the greedy run is the only possible one. -/
def matchAt (s : List Char) : Option (Kind × List Char × List Char) :=
  match s with
  | '`' :: c :: t =>
    match Kind.ofChar c with
    | none => none
    | some k =>
      match t.dropWhile (· ≠ k.closing) with
      | _ :: '`' :: rest => some (k, t.takeWhile (· ≠ k.closing), rest)
      | _ => none
  | _ => none

/-- `re.captures(line)` (annotations.rs:103): the leftmost match.  Returns the text before the
match, the kind, the capture, and the text behind the match. -/
def findMarker : List Char → Option (List Char × Kind × List Char × List Char)
  | [] => none
  | c :: t =>
    match matchAt (c :: t) with
    | some (k, i, rest) => some ([], k, i, rest)
    | none =>
      match findMarker t with
      | some (pre, k, i, rest) => some (c :: pre, k, i, rest)
      | none => none

theorem matchAt_length {s k i r} (h : matchAt s = some (k, i, r)) : r.length < s.length := by
  unfold matchAt at h
  split at h
  · split at h
    · cases h
    · rename_i c t _ k' hk
      split at h
      · rename_i x rest hd
        simp only [Option.some.injEq, Prod.mk.injEq] at h
        obtain ⟨_, _, rfl⟩ := h
        have := List.IsSuffix.length_le (List.dropWhile_suffix (l := t) (· ≠ k'.closing))
        rw [hd] at this
        simp at this ⊢
        omega
      · cases h
  · cases h

theorem findMarker_length {s p k i r} (h : findMarker s = some (p, k, i, r)) :
    r.length < s.length := by
  induction s generalizing p with
  | nil => simp [findMarker] at h
  | cons c t ih =>
    unfold findMarker at h
    split at h
    · rename_i hm
      simp only [Option.some.injEq, Prod.mk.injEq] at h
      obtain ⟨_, rfl, rfl, rfl⟩ := h
      exact matchAt_length hm
    · split at h
      · rename_i hm
        simp only [Option.some.injEq, Prod.mk.injEq] at h
        obtain ⟨_, rfl, rfl, rfl⟩ := h
        have := ih hm
        simp; omega
      · cases h

/-- `str::split(c)`: the pieces between occurrences of `c` (annotations.rs:117). -/
def splitOn (c : Char) : List Char → List (List Char)
  | [] => [[]]
  | x :: t =>
    if x = c then [] :: splitOn c t
    else match splitOn c t with
      | [] => [[x]]
      | p :: ps => (x :: p) :: ps

/-- `str::split_once(c)` (annotations.rs:118). -/
def splitOnce (c : Char) : List Char → Option (List Char × List Char)
  | [] => none
  | x :: t =>
    if x = c then some ([], t)
    else (splitOnce c t).map fun (a, b) => (x :: a, b)

/-- The `config` map of a marker, as the list of insertions in order (annotations.rs:116-122). -/
def configOf (interior : List Char) : List (List Char × List Char) :=
  ((splitOn ',' interior).filter (· ≠ [])).map fun s =>
    match splitOnce ':' s with
    | some (a, b) => (a, b)
    | none => (s, [])

/-- `HashMap::get` on the map built by these insertions: the last insertion of a key wins
(annotations.rs:119-120, 127, 138, 141). -/
def cfgGet (cfg : List (List Char × List Char)) (k : List Char) : Option (List Char) :=
  (cfg.reverse.find? (·.1 = k)).map (·.2)

/-- `PathMatcher`, annotations.rs:19-25. -/
inductive PathMatcher
  | literal (s : List Char)
  | regex (s : List Char)
  deriving DecidableEq, Repr

/-- `AquascopeAnnotations` with its parts, annotations.rs:27-54.  The map `focused_paths` from
lines to matcher lists is kept as the list of its pushes in order; the entry of a line is the
sublist for that line (`focusedPathsAt`). -/
structure Annots where
  hiddenLines : List Nat := []
  stateLocations : List Nat := []
  stepperLines : List Nat := []
  stepperPaths : List (Nat × PathMatcher) := []
  boundaryLines : List Nat := []
  deriving DecidableEq, Repr

/-- `focused_paths.get(line)` with a missing entry read as the empty list
(annotations.rs:31, 130-137). -/
def Annots.focusedPathsAt (a : Annots) (line : Nat) : List PathMatcher :=
  (a.stepperPaths.filter (·.1 = line)).map (·.2)

/-- Effect of one marker on the annotations (annotations.rs:124-148); `idx` is the running byte
index, `line` the 1-based line number. -/
def addMarker (a : Annots) (idx line : Nat) (k : Kind) (interior : List Char) : Annots :=
  match k with
  | .interp => { a with stateLocations := a.stateLocations ++ [idx] }
  | .stepper =>
    let cfg := configOf interior
    let a := if (cfgGet cfg "focus".toList).isSome
      then { a with stepperLines := a.stepperLines ++ [line] } else a
    let a := match cfgGet cfg "paths".toList with
      | some p => { a with stepperPaths := a.stepperPaths ++ [(line, .literal p)] }
      | none => a
    match cfgGet cfg "rxpaths".toList with
      | some p => { a with stepperPaths := a.stepperPaths ++ [(line, .regex p)] }
      | none => a
  | .boundaries => { a with boundaryLines := a.boundaryLines ++ [line] }

/-- The `while let Some(cap) = re.captures(line)` loop with the final fragment
(annotations.rs:103-152).  Returns annotations, running index and the fragments of the line. -/
def markerLoop (a : Annots) (idx lineNo : Nat) (line : List Char) :
    Annots × Nat × List (List Char) :=
  match _h : findMarker line with
  | some (pre, k, interior, rest) =>
    let idx := idx + bytes pre
    let r := markerLoop (addMarker a idx lineNo k interior) idx lineNo rest
    (r.1, r.2.1, pre :: r.2.2)
  | none => (a, idx + bytes line, [line])
termination_by line.length
decreasing_by exact findMarker_length _h

/-- One iteration of the loop over the lines (annotations.rs:85-156), without the `idx += 1`. -/
def processLine (a : Annots) (idx lineNo : Nat) (line : List Char) :
    Annots × Nat × List (List Char) :=
  match line with
  | '#' :: suffix =>
    ({ a with hiddenLines := a.hiddenLines ++ [lineNo] }, idx + bytes suffix, [suffix])
  | '\\' :: '#' :: suffix => (a, idx + bytes ['#'] + bytes suffix, [['#'], suffix])
  | _ => markerLoop a idx lineNo line

/-- The loop over `code.lines().enumerate()` (annotations.rs:82-156); `lineIdx` is 0-based. -/
def processLines (a : Annots) (idx lineIdx : Nat) :
    List (List Char) → Annots × List (List (List Char))
  | [] => (a, [])
  | l :: ls =>
    let r := processLine a idx (lineIdx + 1) l
    let r' := processLines r.1 (r.2.1 + 1) (lineIdx + 1) ls
    (r'.1, r.2.2 :: r'.2)

/-- `str::split_inclusive('\n')` as used by `str::lines`. -/
def splitInclusive : List Char → List (List Char)
  | [] => []
  | x :: t =>
    if x = '\n' then [x] :: splitInclusive t
    else match splitInclusive t with
      | [] => [[x]]
      | p :: ps => (x :: p) :: ps

/-- The line terminator handling of `str::lines`: drop a final `\n`, then a final `\r`. -/
def stripEol (l : List Char) : List Char :=
  match l.getLast? with
  | some '\n' =>
    let l := l.dropLast
    match l.getLast? with
    | some '\r' => l.dropLast
    | _ => l
  | _ => l

/-- `str::lines` of the Rust standard library (annotations.rs:85). -/
def lines (code : List Char) : List (List Char) := (splitInclusive code).map stripEol

/-- `Itertools::intersperse(output_lines, vec!["\n"]).flatten().collect()`
(annotations.rs:159-161). -/
def joinOutput : List (List (List Char)) → List Char
  | [] => []
  | [l] => l.flatten
  | l :: ls => l.flatten ++ '\n' :: joinOutput ls

/-- `parse_annotations` (annotations.rs:63-164).  `Regex::new` on the constant pattern cannot
fail, so the `Result` is always `Ok`. -/
def parseAnnotations (code : List Char) : List Char × Annots :=
  let r := processLines {} 0 0 (lines code)
  (joinOutput r.2, r.1)

end Verif.Annotations
