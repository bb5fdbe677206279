import Verif.Steps.Model
/-!
# Specification of steps
-/
namespace Verif.Steps

open Verif.Permissions

/-- Applying a step to a fact that is present or absent. -/
def applyOption (_old : Option α) : Step α → Option α
  | .high v => some v
  | .low => Option.none
  | .none v => v

/-- Applying a step to a flag. -/
def applyBool (_old : Bool) : Step Bool → Bool
  | .high _ => true
  | .low => false
  | .none v => v.getD false

def applyPerms (p : Perms) (d : PermsDiff) : Perms :=
  ⟨applyBool p.read d.read, applyBool p.write d.write, applyBool p.drop d.drop⟩

/-- Applying a step to a whole state.  Steps do not mention copyability, which is part of the type. -/
def applyData (s : Data) (d : DataDiff) : Data :=
  { typeDroppable := applyBool s.typeDroppable d.typeDroppable
    typeWriteable := applyBool s.typeWriteable d.typeWriteable
    typeCopyable := s.typeCopyable
    isLive := applyBool s.isLive d.isLive
    pathUninitialized := applyBool s.pathUninitialized d.pathUninitialized
    pathMoved := applyOption s.pathMoved d.pathMoved
    loanReadRefined := applyOption s.loanReadRefined d.loanReadRefined
    loanWriteRefined := applyOption s.loanWriteRefined d.loanWriteRefined
    loanDropRefined := applyOption s.loanDropRefined d.loanDropRefined }

def Gained : Step α → Prop
  | .high _ => True
  | _ => False

def Lost : Step α → Prop
  | .low => True
  | _ => False

def Unchanged : Step α → Prop
  | .none _ => True
  | _ => False

/-- Position `p` ends line: it is at a newline or at the end of the text. -/
def AtLineEnd (src : List Char) (p : Nat) : Prop := src.length ≤ p ∨ src[p]? = some '\n'

/-- Two positions on the same line: no newline between them. -/
def SameLine (src : List Char) (p q : Nat) : Prop :=
  ∀ i, min p q ≤ i → i < max p q → src[i]? ≠ some '\n'

/-- The row order: by variable, then by depth. -/
def RowOrder (a b : Place × DataDiff) : Prop :=
  a.1.local_ < b.1.local_ ∨ (a.1.local_ = b.1.local_ ∧ a.1.projection.length ≤ b.1.projection.length)

/-- A row that may be shown: a visible place, live at one end of the step, and in changes-only mode with a
change of permissions. -/
def Showable (visible : Place → Bool) (mode : Mode) (r : Place × DataDiff) : Prop :=
  visible r.1 = true ∧ r.2.isLive ≠ .none (some false) ∧
    (mode = .changes → ¬ (Unchanged r.2.permissions.read ∧ Unchanged r.2.permissions.write ∧
      Unchanged r.2.permissions.drop))

/-- Two steps undo each other as far as the displayed permissions go. -/
def Undo (a b : DataDiff) : Prop :=
  let one (x y : Step Bool) : Prop := (Gained x ∧ Lost y) ∨ (Lost x ∧ Gained y) ∨ (Unchanged x ∧ Unchanged y)
  one a.permissions.read b.permissions.read ∧ one a.permissions.write b.permissions.write ∧
    one a.permissions.drop b.permissions.drop

open Classical in
/-- The steps of place `p` on line `line`, in the order of the tables; tables whose line ends after the
error are not counted. -/
noncomputable def stepsOn (src : List Char) (err : Option Nat) (visible : Place → Bool) (mode : Mode)
    (tables : List Table) (line : Nat) (p : Place) : List DataDiff :=
  tables.flatMap fun t =>
    if lineOf src t.hi = line ∧ ¬ (∃ e, err = some e ∧ e < lineEnd src t.hi) then
      t.data.filterMap fun (r : Place × DataDiff) => if r.1 = p ∧ Showable visible mode r then some r.2 else none
    else []

/-- Place `p` is shown with step `d` on line `line`. -/
def Shown (src : List Char) (ds : List Display) (line : Nat) (p : Place) (d : DataDiff) : Prop :=
  ∃ disp ∈ ds, lineOf src disp.pos = line ∧ (p, d) ∈ disp.state

end Verif.Steps
