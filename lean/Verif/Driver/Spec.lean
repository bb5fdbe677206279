import Verif.Driver.Model
/-!
# Specification of the error tracker and of the output of the plugin
-/
namespace Verif.Driver

/-- `a` is the earliest error among the diagnostics: the first of those with the least start; `none` if there
is no error. -/
def Earliest (ds : List Diag) : Option Span → Prop
  | none => ∀ d ∈ ds, d.isError = false
  | some s => ∃ i : Nat, ds[i]? = some ⟨s, true⟩ ∧
      ∀ (j : Nat) (d : Diag), ds[j]? = some d → d.isError = true →
        s.lo ≤ d.span.lo ∧ (d.span.lo = s.lo → i ≤ j)

/-- An entry of the output, as opposed to an end of the whole run. -/
def Outcome.Entry {α : Type} (o : Outcome α) : Prop := o ≠ .fatal ∧ o ≠ .panic

/-- The diagnostics emitted while `body` is analysed after `before`: those of the bodies it needs and no earlier
body needed, each once. -/
def fresh {α : Type} (c : Compiler α) (before : List Nat) (body : Nat) : List Diag :=
  ((c.needs body).filter (fun q => decide (∀ b ∈ before, q ∉ c.needs b))).eraseDups.flatMap c.diags

/-- The analysis of `body`, after those of `before`, ends with `o`. -/
def Ends {α : Type} (c : Compiler α) (before : List Nat) (body : Nat) (o : Outcome α) : Prop :=
  ∃ a, Earliest (fresh c before body) a ∧ o = c.outcome body a

end Verif.Driver
