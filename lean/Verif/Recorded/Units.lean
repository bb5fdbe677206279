import Verif.Block.Props
import Verif.InlinePerms.Model
import Verif.Group.Model
import Verif.Cfg.Model
/-!
# The model against the repository's own unit tests

Each example is a test of the repository, run on the model: the same input and the same expected answer.
-/
namespace Verif.Recorded
open Verif

/-! `test_group_steps` (interpreter/mapper.rs) -/

def unitStep (name : String) (l : Nat) : Group.Step Nat String Unit := ⟨[⟨l, name⟩], ()⟩

example : (Group.groupSteps (⟨[unitStep "S0" 0, unitStep "S1" 1, unitStep "S2" 2], ()⟩ : Group.Trace Nat String Unit Unit)
    (fun n => some (n / 2 * 2))).map (fun t => t.steps.map fun s => s.frames.map fun f => (f.payload, f.location)) =
    some [[("S1", 0)], [("S2", 2)]] := by decide

/-! `pdom_diamond`, `pdom_double_diamond`, `pdom_linear` (ir_mapper/post_dominators.rs) -/

def edges (l : List (Nat × Nat)) (a : Nat) : List Nat := (l.filter (·.1 = a)).map (·.2)

example : ∀ b ∈ [0, 1, 2], Cfg.isPostdominatedBy (edges [(0, 1), (0, 2), (1, 3), (2, 3)]) 4 [3] b 3 = true := by
  decide +kernel

def doubleDiamond : Nat → List Nat :=
  edges [(0, 1), (1, 2), (1, 3), (2, 4), (3, 4), (4, 5), (4, 6), (5, 7), (6, 7)]

example : (∀ q ∈ [(0, 1), (0, 4), (0, 7), (1, 4), (1, 7), (4, 7)],
      Cfg.isPostdominatedBy doubleDiamond 8 [7] q.1 q.2 = true) ∧
    (∀ i < 8, ∀ bad ∈ [2, 3, 5, 6], i ≠ bad → Cfg.isPostdominatedBy doubleDiamond 8 [7] i bad = false) := by
  decide +kernel

/-- with twenty nodes instead of a hundred -/
example : ∀ i < 20, ∀ j < 20, i < j →
    Cfg.isPostdominatedBy (fun a => if a + 1 < 20 then [a + 1] else []) 20 [19] i j = true := by decide +kernel

/-! `cleaned_body_simple_if` (ir_mapper/body_graph.rs), with the MIR in its comment -/

def simpleIf : Cfg.Body :=
  [⟨6, .switchInt [3, 1], false⟩, ⟨1, .other [2, 5], false⟩, ⟨2, .goto 4, false⟩, ⟨1, .goto 4, false⟩, ⟨4, .ret, false⟩,
    ⟨0, .other [], true⟩]

example : (∀ n < 5, simpleIf.keep n = true) ∧ simpleIf.keep 5 = false ∧
    (∀ n < 5, Cfg.isPostdominatedBy simpleIf.succ 6 simpleIf.returns n 4 = true) ∧
    Cfg.isPostdominatedBy simpleIf.succ 6 simpleIf.returns 0 2 = false ∧
    Cfg.isPostdominatedBy simpleIf.succ 6 simpleIf.returns 0 3 = false ∧
    Cfg.isPostdominatedBy simpleIf.succ 6 simpleIf.returns 1 2 = true ∧
    Cfg.isPostdominatedBy simpleIf.succ 6 simpleIf.returns 1 3 = false := by decide +kernel

/-! `test_parse_annotations` (mdbook-aquascope/src/annotations.rs) -/

def annotated : List Char :=
  "#fn main() {\nlet x = 1;`(focus,paths:x,rxpaths:y)`\n`[]`let y = 2;`{}`\n#}".toList

example : Annotations.parseAnnotations annotated =
    ("fn main() {\nlet x = 1;\nlet y = 2;\n}".toList,
      { hiddenLines := [1, 4], stateLocations := [23], stepperLines := [2],
        stepperPaths := [(2, .literal ['x']), (2, .regex ['y'])], boundaryLines := [3] }) := by
  decide +kernel

/-! `test_parse_block` (mdbook-aquascope/src/block.rs) -/

def unitBlock : List Char := "```aquascope,interpreter,foo=bar,baz\ncontent!\n```".toList

example : Block.parse unitBlock = some ([],
    { operations := ["interpreter".toList], config := [("foo".toList, "bar".toList), ("baz".toList, "true".toList)],
      code := "content!".toList, annotations := {} }) := by
  decide +kernel

example : (Block.parseAll unitBlock).map (·.1) = [(0, unitBlock.length)] := by decide +kernel

/-! `test_parse_perms` and `test_parse_perms_fail` (mdbook-aquascope/src/permissions.rs) -/

example : InlinePerms.parsePerms "Hello @Perm{read} world".toList =
    [.ok ((6, 17), "<span class=\"perm read\">R</span>")] := by
  decide +kernel

example : InlinePerms.parsePerms "Hello @Perm[lost]{read} world".toList =
    [.ok ((6, 23), "<span class=\"perm-diff-sub-container\"><div class=\"perm-diff-sub\"></div><span class=\"perm read\">R</span></span>")] := by
  decide +kernel

example : ∃ e, InlinePerms.parsePerms "@Perm{not-a-perm}".toList = [.error e] :=
  ⟨.invalidPermission "not-a-perm".toList, by decide +kernel⟩

end Verif.Recorded
