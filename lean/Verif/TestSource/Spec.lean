import Verif.TestSource.Model
/-!
# Specification of annotated test sources
-/
namespace Verif.TestSource

/-- A source is a sequence of characters and annotations. -/
inductive Piece where
  | plain (c : Char)
  | note (body : List Char)
  deriving DecidableEq, Repr

/-- The text of a source. -/
def render (opn close : List Char) : List Piece → List Char
  | [] => []
  | .plain c :: r => c :: render opn close r
  | .note b :: r => opn ++ b ++ close ++ render opn close r

/-- `a` and `b` are the first two words of `s`. -/
def FirstWords (ws : Char → Bool) (s a b : List Char) : Prop :=
  ∃ s0 s1 rest, s = s0 ++ a ++ s1 ++ b ++ rest ∧ a ≠ [] ∧ b ≠ [] ∧ s1 ≠ [] ∧
    (∀ c ∈ s0 ++ s1, ws c = true) ∧ (∀ c ∈ a ++ b, ws c = false) ∧
    ∀ c, rest.head? = some c → ws c = true

/-- `s` contains `d` only at the end of `s ++ d`. -/
def Avoids (d s : List Char) : Prop := ∀ x y, s ++ d = x ++ y → d <+: y → x = s

/-- No delimiter begins at a plain character; annotations contain two words and no closing delimiter.  `after`
is what follows in the source. -/
def WF (ws : Char → Bool) (opn close : List Char) (after : List Char) : List Piece → Prop
  | [] => True
  | .plain c :: r =>
    ¬ opn <+: (c :: render opn close r ++ after) ∧ ¬ close <+: (c :: render opn close r ++ after) ∧
      WF ws opn close after r
  | .note b :: r => Avoids close b ∧ (∃ v p, FirstWords ws b v p) ∧ WF ws opn close after r

/-- The stripped text and the marks of a sequence of pieces that begins at byte `at_`. -/
inductive Stripped (ws : Char → Bool) : Nat → List Piece → List Char → List Mark → Prop
  | nil (n) : Stripped ws n [] [] []
  | plain {n c r out ms} : Stripped ws (n + c.utf8Size) r out ms → Stripped ws n (.plain c :: r) (c :: out) ms
  | note {n b r out ms v p} : FirstWords ws b v p → Stripped ws (n + size v) r out ms →
      Stripped ws n (.note b :: r) (v ++ out) (⟨n, n + size v, v, Perms.parse p⟩ :: ms)

end Verif.TestSource
