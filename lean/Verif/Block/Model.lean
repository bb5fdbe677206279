import Verif.Annotations.Model
/-!
# Model of the Markdown block parser

Models `crates/mdbook-aquascope/src/block.rs`.  Texts are lists of characters; `LocatedSpan` offsets
are byte offsets.  The `nom` combinators used are modelled by the functions below
(all in their `complete` variants, so the end of input is an ordinary failure).
-/
namespace Verif.Block
open Verif.Annotations (bytes Annots parseAnnotations)

/-- `tag(t)` (block.rs:34, 43): succeeds iff the input begins with `t`. -/
def tag (t s : List Char) : Option (List Char) :=
  match t, s with
  | [], s => some s
  | _ :: _, [] => none
  | c :: t, d :: s => if c = d then tag t s else none

/-- Characters accepted by `none_of(",=\n+")` (block.rs:29). -/
def isSym (c : Char) : Bool := !(c = ',' || c = '=' || c = '\n' || c = '+')

/-- `parse_sym` (block.rs:28-31): the longest run of symbol characters, possibly empty; never
fails. Returns the symbol and the remaining input. -/
def parseSym (s : List Char) : List Char × List Char := (s.takeWhile isSym, s.dropWhile isSym)

/-- The repetition part of `separated_list1(char('+'), parse_sym)` (block.rs:35). `parse_sym`
cannot fail, so a separator is always followed by an element. -/
def parseMoreOps (s : List Char) : List (List Char) × List Char :=
  match s with
  | '+' :: t =>
    let r := parseMoreOps (t.dropWhile isSym)
    (t.takeWhile isSym :: r.1, r.2)
  | _ => ([], s)
termination_by s.length
decreasing_by
  have := List.IsSuffix.length_le (List.dropWhile_suffix (l := t) isSym)
  simp; omega

/-- `separated_list1(char('+'), parse_sym)` (block.rs:35). -/
def parseOps (s : List Char) : List (List Char) × List Char :=
  let h := parseSym s
  let r := parseMoreOps h.2
  (h.1 :: r.1, r.2)

/-- `alt((separated_pair(parse_sym, char('='), parse_sym), map(parse_sym, |s| (s, "true"))))`
(block.rs:38-41). -/
def parseEntry (s : List Char) : (List Char × List Char) × List Char :=
  let k := parseSym s
  match k.2 with
  | '=' :: t => let v := parseSym t; ((k.1, v.1), v.2)
  | _ => ((k.1, "true".toList), k.2)

theorem parseEntry_length (s : List Char) : (parseEntry s).2.length ≤ s.length := by
  have h (t : List Char) := List.IsSuffix.length_le (List.dropWhile_suffix (l := t) isSym)
  unfold parseEntry parseSym
  dsimp only
  split
  · rename_i t ht
    have h1 := h s; have h2 := h t
    rw [ht] at h1; simp at h1 ⊢; omega
  · exact h s

/-- `many0(preceded(char(','), alt(..)))` (block.rs:36-42). -/
def parseConfig (s : List Char) : List (List Char × List Char) × List Char :=
  match s with
  | ',' :: t =>
    let e := parseEntry t
    let r := parseConfig e.2
    (e.1 :: r.1, r.2)
  | _ => ([], s)
termination_by s.length
decreasing_by
  have := parseEntry_length t
  simp; omega

/-- The fence delimiter. -/
def fence : List Char := ['`', '`', '`']

/-- `take_until("```")` (block.rs:43): the text before the first fence; fails if there is none. -/
def takeUntilFence (s : List Char) : Option (List Char × List Char) :=
  match tag fence s with
  | some _ => some ([], s)
  | none =>
    match s with
    | [] => none
    | c :: t => (takeUntilFence t).map fun (a, b) => (c :: a, b)

/-- `char::is_whitespace` of Rust: the Unicode `White_Space` property (used by `str::trim`). -/
def isWhitespace (c : Char) : Bool :=
  let n := c.toNat
  (9 ≤ n && n ≤ 13) || n = 32 || n = 0x85 || n = 0xA0 || n = 0x1680 ||
  (0x2000 ≤ n && n ≤ 0x200A) || n = 0x2028 || n = 0x2029 || n = 0x202F || n = 0x205F || n = 0x3000

/-- `str::trim` (block.rs:47). -/
def trim (s : List Char) : List Char :=
  ((s.dropWhile isWhitespace).reverse.dropWhile isWhitespace).reverse

/-- `AquascopeBlock` (block.rs:18-24). -/
structure Block where
  operations : List (List Char)
  config : List (List Char × List Char)
  code : List Char
  annotations : Annots
  deriving DecidableEq, Repr

/-- The tag that opens a block (block.rs:34). -/
@[irreducible] def infoTag : List Char :=
  ['`', '`', '`', 'a', 'q', 'u', 'a', 's', 'c', 'o', 'p', 'e']

/-- `AquascopeBlock::parse` (block.rs:27-56): remaining input and block, `none` for `Err`. -/
def parse (s : List Char) : Option (List Char × Block) :=
  match tag infoTag s with
  | none => none
  | some s =>
    match s with
    | ',' :: s =>
      let ops := parseOps s
      let cfg := parseConfig ops.2
      match takeUntilFence cfg.2 with
      | none => none
      | some (body, s) =>
        match tag fence s with
        | none => none
        | some s =>
          let r := parseAnnotations (trim body)
          some (s, { operations := ops.1, config := cfg.1, code := r.1, annotations := r.2 })
    | _ => none

/-- The loop of `AquascopeBlock::parse_all` (block.rs:58-77), started at byte offset `pos`, over a
block parser `p` that is known to consume input.  Offsets of later spans are the offset of the
current span plus the bytes consumed (`LocatedSpan`). -/
def scan {β : Type} (p : List Char → Option (List Char × β))
    (hp : ∀ s r b, p s = some (r, b) → r.length < s.length)
    (pos : Nat) (s : List Char) : List ((Nat × Nat) × β) :=
  match _h : p s with
  | some (rest, b) =>
    let next := pos + (bytes s - bytes rest)
    ((pos, next), b) :: scan p hp next rest
  | none =>
    match s with
    | [] => []
    | c :: t => scan p hp (pos + c.utf8Size) t
termination_by s.length
decreasing_by
  · exact hp _ _ _ _h
  · simp

end Verif.Block
