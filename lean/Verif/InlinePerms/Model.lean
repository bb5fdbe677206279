import Verif.Block.Model
/-!
# Model of the inline permission tags

Models `crates/mdbook-aquascope/src/permissions.rs`.
-/
deriving instance DecidableEq for Except

namespace Verif.InlinePerms
open Verif.Annotations (bytes)
open Verif.Block (tag scan)

/-- `@Perm`, the literal beginning of the regular expression (permissions.rs:14). -/
def atPerm : List Char := ['@', 'P', 'e', 'r', 'm']

/-- `\{([^}]*)\}` at the beginning of the text (permissions.rs:14): the contents and the text
behind. -/
def matchBraces (s : List Char) : Option (List Char × List Char) :=
  match s with
  | '{' :: t =>
    match t.dropWhile (· ≠ '}') with
    | _ :: rest => some (t.takeWhile (· ≠ '}'), rest)
    | [] => none
  | _ => none

/-- One match of the regular expression at the beginning of the text (permissions.rs:14): the text
behind the match, the option group (with its brackets, as captured) and the permission name.  If the
optional group matches, its character `[` cannot be matched by the rest of the expression, so there
is nothing to gain from backtracking into skipping it. -/
def matchPerm (s : List Char) : Option (List Char × (Option (List Char) × List Char)) :=
  match tag atPerm s with
  | none => none
  | some s =>
    match s with
    | '[' :: t =>
      match t.dropWhile (· ≠ ']') with
      | _ :: rest =>
        (matchBraces rest).map fun (p, r) => (r, (some ('[' :: t.takeWhile (· ≠ ']') ++ [']']), p))
      | [] => none
    | s => (matchBraces s).map fun (p, r) => (r, (none, p))

/-- The ways in which a tag can be refused: `bail!` with the name (permissions.rs:21-23), or the
panic of `unimplemented!()` for an unknown option (permissions.rs:37). -/
inductive TagError
  | invalidPermission (perm : List Char)
  | panicUnknownOption
  deriving DecidableEq, Repr

/-- `VALID_PERMISSIONS` (permissions.rs:6). -/
def validPermissions : List String := ["read", "write", "own", "flow"]

/-- `char::to_ascii_uppercase` (permissions.rs:25). -/
def toAsciiUpper (c : Char) : Char := c.toUpper

/-- The body of the `map` in `parse_perms` (permissions.rs:10-42): the HTML for a capture. -/
def renderTag (opt : Option (List Char)) (perm : List Char) : Except TagError String :=
  let perm := String.ofList perm
  if !validPermissions.contains perm then .error (.invalidPermission perm.toList)
  else
    match perm.toList with
    | [] => .error (.invalidPermission [])  -- unreachable: no valid permission is empty
    | c :: _ =>
      let letter := (toAsciiUpper c).toString
      let permHtml := "<span class=\"perm " ++ perm ++ "\">" ++ letter ++ "</span>"
      match opt.map String.ofList with
      | some o =>
        if o = "[gained]" then
          .ok ("<span><span class=\"perm-diff-add\">+</span>" ++ permHtml ++ "</span>")
        else if o = "[lost]" then
          .ok ("<span class=\"perm-diff-sub-container\"><div class=\"perm-diff-sub\"></div>" ++
            permHtml ++ "</span>")
        else if o = "[missing]" then
          .ok ("<span class=\"perm missing " ++ perm ++ "\">" ++ letter ++ "</span>")
        else .error .panicUnknownOption
      | none => .ok permHtml

theorem tag_length {t s r : List Char} (h : tag t s = some r) : r.length + t.length = s.length := by
  induction t generalizing s with
  | nil => simp [tag] at h; simp [h]
  | cons c t ih =>
    cases s with
    | nil => simp [tag] at h
    | cons d s =>
      unfold tag at h
      split at h
      · have := ih h; simp; omega
      · cases h

theorem matchBraces_length {s p r} (h : matchBraces s = some (p, r)) : r.length < s.length := by
  unfold matchBraces at h
  split at h
  · rename_i t
    split at h
    · rename_i x rest hd
      simp only [Option.some.injEq, Prod.mk.injEq] at h
      obtain ⟨-, rfl⟩ := h
      have := List.IsSuffix.length_le (List.dropWhile_suffix (l := t) (· ≠ '}'))
      rw [hd] at this
      simp at this ⊢; omega
    · cases h
  · cases h

theorem matchPerm_length (s r : List Char) (b) (h : matchPerm s = some (r, b)) :
    r.length < s.length := by
  unfold matchPerm at h
  split at h
  · cases h
  · rename_i s1 h1
    have := tag_length h1
    split at h
    · rename_i t
      split at h
      · rename_i x rest hd
        simp only [Option.map_eq_some_iff, Prod.exists, Prod.mk.injEq] at h
        obtain ⟨p, r', hb, rfl, -⟩ := h
        have h2 := matchBraces_length hb
        have h3 := List.IsSuffix.length_le (List.dropWhile_suffix (l := t) (· ≠ ']'))
        rw [hd] at h3
        simp at h3 this; omega
      · cases h
    · simp only [Option.map_eq_some_iff, Prod.exists, Prod.mk.injEq] at h
      obtain ⟨p, r', hb, rfl, -⟩ := h
      have h2 := matchBraces_length hb
      omega

/-- `RE.captures_iter(content)` with byte ranges (permissions.rs:17-19): successive leftmost
non-overlapping matches, which is the same scanning loop as for blocks. -/
def captures (content : List Char) : List ((Nat × Nat) × (Option (List Char) × List Char)) :=
  scan matchPerm matchPerm_length 0 content

/-- `parse_perms` (permissions.rs:10-43): one result per capture. -/
def parsePerms (content : List Char) : List (Except TagError ((Nat × Nat) × String)) :=
  (captures content).map fun x => (renderTag x.2.1 x.2.2).map fun html => (x.1, html)

end Verif.InlinePerms
