import Verif.InlinePerms.Model
/-!
# Specification of inline permission tags
-/
namespace Verif.InlinePerms.Spec

/-- `piece` is the tag with option text `opt` (if any) and permission name `perm`:
`@Perm{perm}` or `@Perm[opt]{perm}`. -/
def IsTag (opt : Option (List Char)) (perm piece : List Char) : Prop :=
  '}' ∉ perm ∧
  match opt with
  | none => piece = ['@', 'P', 'e', 'r', 'm', '{'] ++ perm ++ ['}']
  | some o => ']' ∉ o ∧ piece = ['@', 'P', 'e', 'r', 'm', '['] ++ o ++ [']', '{'] ++ perm ++ ['}']

/-- The permissions that may be shown. -/
inductive Perm | read | write | own | flow

/-- Name of a permission. -/
def Perm.name : Perm → String
  | .read => "read" | .write => "write" | .own => "own" | .flow => "flow"

/-- Letter of a permission. -/
def Perm.letter : Perm → String
  | .read => "R" | .write => "W" | .own => "O" | .flow => "F"

/-- Decorations of a tag. -/
inductive Deco | plain | gained | lost | missing

/-- The option text of a decoration. -/
def Deco.opt : Deco → Option String
  | .plain => none | .gained => some "gained" | .lost => some "lost" | .missing => some "missing"

/-- The HTML shown for a permission letter with a decoration. -/
def html : Perm → Deco → String
  | p, .plain => "<span class=\"perm " ++ p.name ++ "\">" ++ p.letter ++ "</span>"
  | p, .gained => "<span><span class=\"perm-diff-add\">+</span><span class=\"perm " ++ p.name ++
      "\">" ++ p.letter ++ "</span></span>"
  | p, .lost => "<span class=\"perm-diff-sub-container\"><div class=\"perm-diff-sub\"></div>" ++
      "<span class=\"perm " ++ p.name ++ "\">" ++ p.letter ++ "</span></span>"
  | p, .missing => "<span class=\"perm missing " ++ p.name ++ "\">" ++ p.letter ++ "</span>"

end Verif.InlinePerms.Spec
