/-!
# Model of the annotated test sources

Models `split_test_source` and `Permissions::from` (`crates/aquascope/src/test_utils.rs:68-79,91-163`), and the
check of the recorded permissions over all bodies (`test_utils.rs:213-289`).

Simplifications.
* The code scans bytes.  The delimiters are ASCII, so they match at the same places of the list of characters;
  positions are sums of UTF-8 sizes, and the UTF-8 checks of the pieces never fail.
* What counts as white space is a parameter (`char::is_whitespace`).
* `to_lowercase` is the ASCII one: no other character has a lower case with one of the four letters.
* The map is the list of its insertions (`C57_distinct`: the keys are different).
-/
namespace Verif.TestSource

structure Perms where
  read : Bool
  write : Bool
  drop : Bool
  deriving DecidableEq, Repr

/-- `From<&str> for Permissions` (test_utils.rs:68-79). -/
def Perms.parse (s : List Char) : Perms :=
  let l := s.map Char.toLower
  ⟨l.contains 'r', l.contains 'w', l.contains 'd' || l.contains 'o'⟩

/-- Byte length. -/
def size (s : List Char) : Nat := (s.map Char.utf8Size).sum

/-- `split_whitespace`; `cur` is the token being read, reversed. -/
def tokensFrom (ws : Char → Bool) (cur : List Char) : List Char → List (List Char)
  | [] => if cur.isEmpty then [] else [cur.reverse]
  | c :: r =>
    if ws c then (if cur.isEmpty then tokensFrom ws [] r else cur.reverse :: tokensFrom ws [] r)
    else tokensFrom ws (c :: cur) r

def tokens (ws : Char → Bool) (s : List Char) : List (List Char) := tokensFrom ws [] s

/-- The inner loop (test_utils.rs:123-125): the text before the next closing delimiter and the text from it
on. -/
def untilClose (close : List Char) : List Char → Option (List Char × List Char)
  | [] => if close.isPrefixOf [] then some ([], []) else none
  | c :: r =>
    if close.isPrefixOf (c :: r) then some ([], c :: r)
    else match untilClose close r with
      | none => none
      | some (body, rest) => some (c :: body, rest)

/-- An entry of the map: byte range, variable, permissions. -/
structure Mark where
  start : Nat
  stop : Nat
  var : List Char
  perms : Perms
  deriving DecidableEq, Repr

inductive Err where
  | unmatchedOpen
  | unmatchedClose
  /-- `next_tuple().unwrap()` -/
  | panic
  deriving DecidableEq, Repr

/-- The loop (test_utils.rs:116-158); each round takes at least one character, so `fuel` = length is enough. -/
def split (ws : Char → Bool) (opn close : List Char) :
    Nat → List Char → List Char → List Mark → Except Err (List Char × List Mark)
  | _, [], out, marks => .ok (out, marks)
  | 0, _ :: _, _, _ => .error .panic
  | fuel + 1, c :: r, out, marks =>
    if opn.isPrefixOf (c :: r) then
      match untilClose close ((c :: r).drop opn.length) with
      | none => .error .unmatchedOpen
      | some (body, rest) =>
        match tokens ws body with
        | var :: perms :: _ =>
          split ws opn close fuel (rest.drop close.length) (out ++ var)
            (marks ++ [⟨size out, size (out ++ var), var, Perms.parse perms⟩])
        | _ => .error .panic
    else if close.isPrefixOf (c :: r) then .error .unmatchedClose
    else split ws opn close fuel r (out ++ [c]) marks

/-- `split_test_source` (test_utils.rs:91-163). -/
def splitTestSource (ws : Char → Bool) (opn close src : List Char) : Except Err (List Char × List Mark) :=
  split ws opn close src.length src [] []

/-! ## The check of the recorded permissions -/

/-- What a body says about a range: no place there, or the permissions of the place. -/
abbrev BodyView := Mark → Option Perms

/-- `expected_permissions.retain(..)` over all bodies, then the final assertion (test_utils.rs:222-289); `false`: an
assertion fails. -/
def checkAll : List BodyView → List Mark → Bool
  | [], expected => expected.isEmpty
  | b :: r, expected =>
    if expected.all (fun m => match b m with
        | none => true
        | some p => p == m.perms) then
      checkAll r (expected.filter (fun m => (b m).isNone))
    else false

end Verif.TestSource
