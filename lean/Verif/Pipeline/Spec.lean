import Verif.Pipeline.Model
import Verif.Steps.Spec
import Verif.Frontend.StepperProps
import Verif.HirSteps.Straight

/-! # Specification of the tables of a body -/
namespace Verif.Pipeline

open Verif.Cfg Verif.Segments Verif.Steps Verif.Permissions

/-- The variables recorded last for a scope. -/
inductive DeclaredAt : List (Nat × List Nat) → Nat → Nat → Prop
  | here {rest s ls v} : v ∈ ls → (∀ e ∈ rest, e.1 ≠ s) → DeclaredAt ((s, ls) :: rest) s v
  | later {e rest s v} : DeclaredAt rest s v → DeclaredAt (e :: rest) s v

/-- Table `t` is about the change of place `p` from state `a` to state `b`, at a part of the source that ends at
`hi`. -/
inductive Covers (c : Ctxt) (f : Frozen) (locals : List (Nat × List Nat)) :
    Tab → Place → Data → Data → Nat → Prop
  | entry {p} : p ∈ c.places → Covers c f locals .entry p bottomData (c.data c.start p) c.brace
  | seg {p sid s} : p ∈ c.places → f.segs[sid]? = some s →
      (∀ scope, Above f.scopes s.scope scope → ¬ DeclaredAt locals scope p.local_) →
      Covers c f locals (.seg sid) p (c.data s.from p) (c.data s.to p) (c.endOf s.span)
  | attached {p bid b sid rest s} : p ∈ c.places → f.branches[bid]? = some b → b.splits = sid :: rest →
      f.segs[sid]? = some s → DeclaredAt locals s.scope p.local_ →
      Covers c f locals (.attached bid) p (c.data b.reachFrom p) (c.data b.reachTo p)
        (max (c.locSpan b.reachFrom).1 (c.locSpan b.reachTo).2)

/-- What the three cells of a row say: for R, W and O whether the place has the permission before and after. -/
def Says (d : DataDiff) (before after : Perms) : Prop :=
  (Frontend.cells d).map (fun c => (c.letter, c.mark.says)) =
    [(.R, before.read, after.read), (.W, before.write, after.write), (.O, before.drop, after.drop)]

/-- The part of the source that ends at `hi` is on the line, and not after the error. -/
def OnLine (src : List Char) (err : Option Nat) (hi line : Nat) : Prop :=
  lineOf src hi = line ∧ ∀ e, err = some e → lineEnd src hi ≤ e

end Verif.Pipeline
