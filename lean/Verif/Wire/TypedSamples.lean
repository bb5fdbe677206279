import Verif.Wire.Typed
/-!
# C116: samples

Two answers with every kind of part, and their texts letter by letter.
-/
namespace Verif.Wire
open Verif.Preproc (Json)
open Verif.Value (MValue MSeg MKind PSeg Prim)
open Verif.Trace.Locals (MLocal)

/-- Texts for floats, for the samples: the bits as a number. -/
def sampleFloats : Floats := { text := Nat.toDigits 10, back := fun s => asNat (.num s) }

/-- There are texts for floats as the theorems ask for. -/
theorem sampleFloats_exact : sampleFloats.Exact :=
  ⟨fun bits _ => digits_number bits, fun bits _ => asNat_natJson bits⟩

def sampleLocal (n : String) (v : MValue) : MLocal := { name := n, value := v, movedPaths := [] }

/-- One step with values of every kind. -/
def sampleTrace : WTrace :=
  { steps := [{
      frames := [{
        name := ['m', 'a', 'i', 'n'], body := ⟨⟨0, 0⟩, ⟨9, 1⟩⟩, location := ⟨⟨1, 2⟩, ⟨1, 8⟩⟩,
        locals := [
          { name := "a", value := .tuple [.prim (.bool true), .prim (.char 65), .prim (.uint 7), .prim (.int (-3)), .prim (.float 4)],
            movedPaths := [[.field 0, .index 1]] },
          sampleLocal "b" (.all [.prim (.uint 1)]),
          sampleLocal "c" (.only [.prim (.uint 1)] (.prim (.uint 2))),
          sampleLocal "d" (.adt "S" (some "V") [("0", .unallocated none)] (some (.vec 2))),
          sampleLocal "e" (.adt "B" none [] (some .box)),
          sampleLocal "f" (.adt "T" none [] (some (.string 3))),
          sampleLocal "g" (.pointer (.stack 0 "a") [.subslice 1 2] (some 2))] }],
      heap := [.pointer (.heap 4) [] none] }],
    result := .useAfterFree 5 }

/-- The text of the sample, letter by letter. -/
example : write (traceJson sampleFloats sampleTrace) =
    ['{', '"', 's', 't', 'e', 'p', 's', '"', ':', '[', '{', '"', 's', 't', 'a', 'c', 'k', '"', ':', '{', '"', 'f', 'r', 'a',
     'm', 'e', 's', '"', ':', '[', '{', '"', 'n', 'a', 'm', 'e', '"', ':', '"', 'm', 'a', 'i', 'n', '"', ',', '"', 'b', 'o',
     'd', 'y', '_', 's', 'p', 'a', 'n', '"', ':', '{', '"', 's', 't', 'a', 'r', 't', '"', ':', '{', '"', 'l', 'i', 'n', 'e',
     '"', ':', '0', ',', '"', 'c', 'o', 'l', 'u', 'm', 'n', '"', ':', '0', '}', ',', '"', 'e', 'n', 'd', '"', ':', '{', '"',
     'l', 'i', 'n', 'e', '"', ':', '9', ',', '"', 'c', 'o', 'l', 'u', 'm', 'n', '"', ':', '1', '}', '}', ',', '"', 'l', 'o',
     'c', 'a', 't', 'i', 'o', 'n', '"', ':', '{', '"', 's', 't', 'a', 'r', 't', '"', ':', '{', '"', 'l', 'i', 'n', 'e', '"',
     ':', '1', ',', '"', 'c', 'o', 'l', 'u', 'm', 'n', '"', ':', '2', '}', ',', '"', 'e', 'n', 'd', '"', ':', '{', '"', 'l',
     'i', 'n', 'e', '"', ':', '1', ',', '"', 'c', 'o', 'l', 'u', 'm', 'n', '"', ':', '8', '}', '}', ',', '"', 'l', 'o', 'c',
     'a', 'l', 's', '"', ':', '[', '{', '"', 'n', 'a', 'm', 'e', '"', ':', '"', 'a', '"', ',', '"', 'v', 'a', 'l', 'u', 'e',
     '"', ':', '{', '"', 't', 'y', 'p', 'e', '"', ':', '"', 'T', 'u', 'p', 'l', 'e', '"', ',', '"', 'v', 'a', 'l', 'u', 'e',
     '"', ':', '[', '{', '"', 't', 'y', 'p', 'e', '"', ':', '"', 'B', 'o', 'o', 'l', '"', ',', '"', 'v', 'a', 'l', 'u', 'e',
     '"', ':', 't', 'r', 'u', 'e', '}', ',', '{', '"', 't', 'y', 'p', 'e', '"', ':', '"', 'C', 'h', 'a', 'r', '"', ',', '"',
     'v', 'a', 'l', 'u', 'e', '"', ':', '6', '5', '}', ',', '{', '"', 't', 'y', 'p', 'e', '"', ':', '"', 'U', 'i', 'n', 't',
     '"', ',', '"', 'v', 'a', 'l', 'u', 'e', '"', ':', '7', '}', ',', '{', '"', 't', 'y', 'p', 'e', '"', ':', '"', 'I', 'n',
     't', '"', ',', '"', 'v', 'a', 'l', 'u', 'e', '"', ':', '-', '3', '}', ',', '{', '"', 't', 'y', 'p', 'e', '"', ':', '"',
     'F', 'l', 'o', 'a', 't', '"', ',', '"', 'v', 'a', 'l', 'u', 'e', '"', ':', '4', '}', ']', '}', ',', '"', 'm', 'o', 'v',
     'e', 'd', '_', 'p', 'a', 't', 'h', 's', '"', ':', '[', '[', '{', '"', 't', 'y', 'p', 'e', '"', ':', '"', 'F', 'i', 'e',
     'l', 'd', '"', ',', '"', 'v', 'a', 'l', 'u', 'e', '"', ':', '0', '}', ',', '{', '"', 't', 'y', 'p', 'e', '"', ':', '"',
     'I', 'n', 'd', 'e', 'x', '"', ',', '"', 'v', 'a', 'l', 'u', 'e', '"', ':', '1', '}', ']', ']', '}', ',', '{', '"', 'n',
     'a', 'm', 'e', '"', ':', '"', 'b', '"', ',', '"', 'v', 'a', 'l', 'u', 'e', '"', ':', '{', '"', 't', 'y', 'p', 'e', '"',
     ':', '"', 'A', 'r', 'r', 'a', 'y', '"', ',', '"', 'v', 'a', 'l', 'u', 'e', '"', ':', '{', '"', 't', 'y', 'p', 'e', '"',
     ':', '"', 'A', 'l', 'l', '"', ',', '"', 'v', 'a', 'l', 'u', 'e', '"', ':', '[', '{', '"', 't', 'y', 'p', 'e', '"', ':',
     '"', 'U', 'i', 'n', 't', '"', ',', '"', 'v', 'a', 'l', 'u', 'e', '"', ':', '1', '}', ']', '}', '}', ',', '"', 'm', 'o',
     'v', 'e', 'd', '_', 'p', 'a', 't', 'h', 's', '"', ':', '[', ']', '}', ',', '{', '"', 'n', 'a', 'm', 'e', '"', ':', '"',
     'c', '"', ',', '"', 'v', 'a', 'l', 'u', 'e', '"', ':', '{', '"', 't', 'y', 'p', 'e', '"', ':', '"', 'A', 'r', 'r', 'a',
     'y', '"', ',', '"', 'v', 'a', 'l', 'u', 'e', '"', ':', '{', '"', 't', 'y', 'p', 'e', '"', ':', '"', 'O', 'n', 'l', 'y',
     '"', ',', '"', 'v', 'a', 'l', 'u', 'e', '"', ':', '[', '[', '{', '"', 't', 'y', 'p', 'e', '"', ':', '"', 'U', 'i', 'n',
     't', '"', ',', '"', 'v', 'a', 'l', 'u', 'e', '"', ':', '1', '}', ']', ',', '{', '"', 't', 'y', 'p', 'e', '"', ':', '"',
     'U', 'i', 'n', 't', '"', ',', '"', 'v', 'a', 'l', 'u', 'e', '"', ':', '2', '}', ']', '}', '}', ',', '"', 'm', 'o', 'v',
     'e', 'd', '_', 'p', 'a', 't', 'h', 's', '"', ':', '[', ']', '}', ',', '{', '"', 'n', 'a', 'm', 'e', '"', ':', '"', 'd',
     '"', ',', '"', 'v', 'a', 'l', 'u', 'e', '"', ':', '{', '"', 't', 'y', 'p', 'e', '"', ':', '"', 'A', 'd', 't', '"', ',',
     '"', 'v', 'a', 'l', 'u', 'e', '"', ':', '{', '"', 'n', 'a', 'm', 'e', '"', ':', '"', 'S', '"', ',', '"', 'v', 'a', 'r',
     'i', 'a', 'n', 't', '"', ':', '"', 'V', '"', ',', '"', 'f', 'i', 'e', 'l', 'd', 's', '"', ':', '[', '[', '"', '0', '"',
     ',', '{', '"', 't', 'y', 'p', 'e', '"', ':', '"', 'U', 'n', 'a', 'l', 'l', 'o', 'c', 'a', 't', 'e', 'd', '"', ',', '"',
     'v', 'a', 'l', 'u', 'e', '"', ':', '{', '"', 'a', 'l', 'l', 'o', 'c', '_', 'i', 'd', '"', ':', 'n', 'u', 'l', 'l', '}',
     '}', ']', ']', ',', '"', 'a', 'l', 'l', 'o', 'c', '_', 'k', 'i', 'n', 'd', '"', ':', '{', '"', 't', 'y', 'p', 'e', '"',
     ':', '"', 'V', 'e', 'c', '"', ',', '"', 'v', 'a', 'l', 'u', 'e', '"', ':', '{', '"', 'l', 'e', 'n', '"', ':', '2', '}',
     '}', '}', '}', ',', '"', 'm', 'o', 'v', 'e', 'd', '_', 'p', 'a', 't', 'h', 's', '"', ':', '[', ']', '}', ',', '{', '"',
     'n', 'a', 'm', 'e', '"', ':', '"', 'e', '"', ',', '"', 'v', 'a', 'l', 'u', 'e', '"', ':', '{', '"', 't', 'y', 'p', 'e',
     '"', ':', '"', 'A', 'd', 't', '"', ',', '"', 'v', 'a', 'l', 'u', 'e', '"', ':', '{', '"', 'n', 'a', 'm', 'e', '"', ':',
     '"', 'B', '"', ',', '"', 'v', 'a', 'r', 'i', 'a', 'n', 't', '"', ':', 'n', 'u', 'l', 'l', ',', '"', 'f', 'i', 'e', 'l',
     'd', 's', '"', ':', '[', ']', ',', '"', 'a', 'l', 'l', 'o', 'c', '_', 'k', 'i', 'n', 'd', '"', ':', '{', '"', 't', 'y',
     'p', 'e', '"', ':', '"', 'B', 'o', 'x', '"', '}', '}', '}', ',', '"', 'm', 'o', 'v', 'e', 'd', '_', 'p', 'a', 't', 'h',
     's', '"', ':', '[', ']', '}', ',', '{', '"', 'n', 'a', 'm', 'e', '"', ':', '"', 'f', '"', ',', '"', 'v', 'a', 'l', 'u',
     'e', '"', ':', '{', '"', 't', 'y', 'p', 'e', '"', ':', '"', 'A', 'd', 't', '"', ',', '"', 'v', 'a', 'l', 'u', 'e', '"',
     ':', '{', '"', 'n', 'a', 'm', 'e', '"', ':', '"', 'T', '"', ',', '"', 'v', 'a', 'r', 'i', 'a', 'n', 't', '"', ':', 'n',
     'u', 'l', 'l', ',', '"', 'f', 'i', 'e', 'l', 'd', 's', '"', ':', '[', ']', ',', '"', 'a', 'l', 'l', 'o', 'c', '_', 'k',
     'i', 'n', 'd', '"', ':', '{', '"', 't', 'y', 'p', 'e', '"', ':', '"', 'S', 't', 'r', 'i', 'n', 'g', '"', ',', '"', 'v',
     'a', 'l', 'u', 'e', '"', ':', '{', '"', 'l', 'e', 'n', '"', ':', '3', '}', '}', '}', '}', ',', '"', 'm', 'o', 'v', 'e',
     'd', '_', 'p', 'a', 't', 'h', 's', '"', ':', '[', ']', '}', ',', '{', '"', 'n', 'a', 'm', 'e', '"', ':', '"', 'g', '"',
     ',', '"', 'v', 'a', 'l', 'u', 'e', '"', ':', '{', '"', 't', 'y', 'p', 'e', '"', ':', '"', 'P', 'o', 'i', 'n', 't', 'e',
     'r', '"', ',', '"', 'v', 'a', 'l', 'u', 'e', '"', ':', '{', '"', 'p', 'a', 't', 'h', '"', ':', '{', '"', 's', 'e', 'g',
     'm', 'e', 'n', 't', '"', ':', '{', '"', 't', 'y', 'p', 'e', '"', ':', '"', 'S', 't', 'a', 'c', 'k', '"', ',', '"', 'v',
     'a', 'l', 'u', 'e', '"', ':', '{', '"', 'f', 'r', 'a', 'm', 'e', '"', ':', '0', ',', '"', 'l', 'o', 'c', 'a', 'l', '"',
     ':', '"', 'a', '"', '}', '}', ',', '"', 'p', 'a', 'r', 't', 's', '"', ':', '[', '{', '"', 't', 'y', 'p', 'e', '"', ':',
     '"', 'S', 'u', 'b', 's', 'l', 'i', 'c', 'e', '"', ',', '"', 'v', 'a', 'l', 'u', 'e', '"', ':', '[', '1', ',', '2', ']',
     '}', ']', '}', ',', '"', 'r', 'a', 'n', 'g', 'e', '"', ':', '2', '}', '}', ',', '"', 'm', 'o', 'v', 'e', 'd', '_', 'p',
     'a', 't', 'h', 's', '"', ':', '[', ']', '}', ']', '}', ']', '}', ',', '"', 'h', 'e', 'a', 'p', '"', ':', '{', '"', 'l',
     'o', 'c', 'a', 't', 'i', 'o', 'n', 's', '"', ':', '[', '{', '"', 't', 'y', 'p', 'e', '"', ':', '"', 'P', 'o', 'i', 'n',
     't', 'e', 'r', '"', ',', '"', 'v', 'a', 'l', 'u', 'e', '"', ':', '{', '"', 'p', 'a', 't', 'h', '"', ':', '{', '"', 's',
     'e', 'g', 'm', 'e', 'n', 't', '"', ':', '{', '"', 't', 'y', 'p', 'e', '"', ':', '"', 'H', 'e', 'a', 'p', '"', ',', '"',
     'v', 'a', 'l', 'u', 'e', '"', ':', '{', '"', 'i', 'n', 'd', 'e', 'x', '"', ':', '4', '}', '}', ',', '"', 'p', 'a', 'r',
     't', 's', '"', ':', '[', ']', '}', ',', '"', 'r', 'a', 'n', 'g', 'e', '"', ':', 'n', 'u', 'l', 'l', '}', '}', ']', '}',
     '}', ']', ',', '"', 'r', 'e', 's', 'u', 'l', 't', '"', ':', '{', '"', 't', 'y', 'p', 'e', '"', ':', '"', 'E', 'r', 'r',
     'o', 'r', '"', ',', '"', 'v', 'a', 'l', 'u', 'e', '"', ':', '{', '"', 't', 'y', 'p', 'e', '"', ':', '"', 'P', 'o', 'i',
     'n', 't', 'e', 'r', 'U', 's', 'e', 'A', 'f', 't', 'e', 'r', 'F', 'r', 'e', 'e', '"', ',', '"', 'v', 'a', 'l', 'u', 'e',
     '"', ':', '{', '"', 'a', 'l', 'l', 'o', 'c', '_', 'i', 'd', '"', ':', '5', '}', '}', '}', '}'] := by decide +kernel

theorem sampleTrace_finite : finiteTrace sampleTrace := by
  intro s hs
  simp only [sampleTrace, List.mem_cons, List.not_mem_nil, or_false] at hs
  subst hs
  refine ⟨fun f hf => ?_, by decide⟩
  simp only [List.mem_cons, List.not_mem_nil, or_false] at hf
  subst hf
  intro l hl
  simp only [List.mem_cons, List.not_mem_nil, or_false] at hl
  rcases hl with rfl | rfl | rfl | rfl | rfl | rfl | rfl <;> decide

/-- `C116_trace_partial` is about it. -/
example : readTrace sampleFloats (write (traceJson sampleFloats sampleTrace)) = some sampleTrace :=
  C116_trace_partial _ sampleFloats_exact _ sampleTrace_finite

/-- A trace with an infinite float, which the page cannot read. -/
def infiniteTrace : WTrace := { steps := [{ frames := [], heap := [.prim (.float (2047 * 2 ^ 52))] }], result := .success }

example : readTrace sampleFloats (write (traceJson sampleFloats infiniteTrace)) = none :=
  C116_not_finite _ sampleFloats_exact _ fun h => absurd (h _ (List.mem_cons_self ..)).2 (by decide)

/-- A difference with steps of every kind. -/
def sampleDiff : Steps.DataDiff :=
  { isLive := .high true, typeDroppable := .low, typeWriteable := .none (some false), pathMoved := .high 2, pathUninitialized := .none none,
    loanReadRefined := .none none, loanWriteRefined := .none (some 6), loanDropRefined := .low,
    permissions := ⟨.high true, .low, .none (some true)⟩ }

def sampleOutput : WOutput :=
  { body := ⟨⟨0, 0⟩, ⟨3, 1⟩⟩,
    boundaries := [{
      location := ⟨1, 2⟩, expected := ⟨true, false, true⟩, actual := ⟨true, true, false⟩,
      data := ⟨true, false, true, false, true, some 1, some 2, some 3, some 4⟩,
      flow := some ⟨true, ⟨⟨1, 0⟩, ⟨1, 5⟩⟩, .localOutlivesUniversal⟩ }],
    steps := [{ location := ⟨⟨1, 0⟩, ⟨1, 9⟩⟩, tables := [⟨⟨⟨1, 0⟩, ⟨1, 1⟩⟩, ⟨⟨2, 0⟩, ⟨2, 1⟩⟩, [(['x'], sampleDiff)]⟩] }],
    loanPoints := [(12, ⟨⟨1, 1⟩, ⟨1, 2⟩⟩), (7, ⟨⟨2, 1⟩, ⟨2, 2⟩⟩)],
    loanRegions := [(12, ⟨.loan 12, [⟨⟨2, 0⟩, ⟨3, 0⟩⟩]⟩)],
    movePoints := [(0, ⟨⟨4, 1⟩, ⟨4, 2⟩⟩)],
    moveRegions := [(0, ⟨.move 0, []⟩)] }

def sampleResults : List (Except WError WOutput) :=
  [.ok sampleOutput, .error (.build (some ⟨⟨5, 0⟩, ⟨6, 0⟩⟩)), .error (.analysis ['n', 'o']), .error (.build none)]

/-- The text of the sample, letter by letter. -/
example : write (outputsJson sampleResults) =
    ['[', '{', '"', 'O', 'k', '"', ':', '{', '"', 'b', 'o', 'd', 'y', '_', 'r', 'a', 'n', 'g', 'e', '"', ':', '{', '"', 's',
     't', 'a', 'r', 't', '"', ':', '{', '"', 'l', 'i', 'n', 'e', '"', ':', '0', ',', '"', 'c', 'o', 'l', 'u', 'm', 'n', '"',
     ':', '0', '}', ',', '"', 'e', 'n', 'd', '"', ':', '{', '"', 'l', 'i', 'n', 'e', '"', ':', '3', ',', '"', 'c', 'o', 'l',
     'u', 'm', 'n', '"', ':', '1', '}', '}', ',', '"', 'b', 'o', 'u', 'n', 'd', 'a', 'r', 'i', 'e', 's', '"', ':', '[', '{',
     '"', 'l', 'o', 'c', 'a', 't', 'i', 'o', 'n', '"', ':', '{', '"', 'l', 'i', 'n', 'e', '"', ':', '1', ',', '"', 'c', 'o',
     'l', 'u', 'm', 'n', '"', ':', '2', '}', ',', '"', 'e', 'x', 'p', 'e', 'c', 't', 'e', 'd', '"', ':', '{', '"', 'r', 'e',
     'a', 'd', '"', ':', 't', 'r', 'u', 'e', ',', '"', 'w', 'r', 'i', 't', 'e', '"', ':', 'f', 'a', 'l', 's', 'e', ',', '"',
     'd', 'r', 'o', 'p', '"', ':', 't', 'r', 'u', 'e', '}', ',', '"', 'a', 'c', 't', 'u', 'a', 'l', '"', ':', '{', '"', 'r',
     'e', 'a', 'd', '"', ':', 't', 'r', 'u', 'e', ',', '"', 'w', 'r', 'i', 't', 'e', '"', ':', 't', 'r', 'u', 'e', ',', '"',
     'd', 'r', 'o', 'p', '"', ':', 'f', 'a', 'l', 's', 'e', '}', ',', '"', 'd', 'a', 't', 'a', '"', ':', '{', '"', 't', 'y',
     'p', 'e', '_', 'd', 'r', 'o', 'p', 'p', 'a', 'b', 'l', 'e', '"', ':', 't', 'r', 'u', 'e', ',', '"', 't', 'y', 'p', 'e',
     '_', 'w', 'r', 'i', 't', 'e', 'a', 'b', 'l', 'e', '"', ':', 'f', 'a', 'l', 's', 'e', ',', '"', 't', 'y', 'p', 'e', '_',
     'c', 'o', 'p', 'y', 'a', 'b', 'l', 'e', '"', ':', 't', 'r', 'u', 'e', ',', '"', 'i', 's', '_', 'l', 'i', 'v', 'e', '"',
     ':', 'f', 'a', 'l', 's', 'e', ',', '"', 'p', 'a', 't', 'h', '_', 'u', 'n', 'i', 'n', 'i', 't', 'i', 'a', 'l', 'i', 'z',
     'e', 'd', '"', ':', 't', 'r', 'u', 'e', ',', '"', 'p', 'a', 't', 'h', '_', 'm', 'o', 'v', 'e', 'd', '"', ':', '1', ',',
     '"', 'l', 'o', 'a', 'n', '_', 'r', 'e', 'a', 'd', '_', 'r', 'e', 'f', 'i', 'n', 'e', 'd', '"', ':', '2', ',', '"', 'l',
     'o', 'a', 'n', '_', 'w', 'r', 'i', 't', 'e', '_', 'r', 'e', 'f', 'i', 'n', 'e', 'd', '"', ':', '3', ',', '"', 'l', 'o',
     'a', 'n', '_', 'd', 'r', 'o', 'p', '_', 'r', 'e', 'f', 'i', 'n', 'e', 'd', '"', ':', '4', '}', ',', '"', 'e', 'x', 'p',
     'e', 'c', 't', 'i', 'n', 'g', '_', 'f', 'l', 'o', 'w', '"', ':', '{', '"', 'i', 's', '_', 'v', 'i', 'o', 'l', 'a', 't',
     'i', 'o', 'n', '"', ':', 't', 'r', 'u', 'e', ',', '"', 'f', 'l', 'o', 'w', '_', 'c', 'o', 'n', 't', 'e', 'x', 't', '"',
     ':', '{', '"', 's', 't', 'a', 'r', 't', '"', ':', '{', '"', 'l', 'i', 'n', 'e', '"', ':', '1', ',', '"', 'c', 'o', 'l',
     'u', 'm', 'n', '"', ':', '0', '}', ',', '"', 'e', 'n', 'd', '"', ':', '{', '"', 'l', 'i', 'n', 'e', '"', ':', '1', ',',
     '"', 'c', 'o', 'l', 'u', 'm', 'n', '"', ':', '5', '}', '}', ',', '"', 'k', 'i', 'n', 'd', '"', ':', '"', 'L', 'o', 'c',
     'a', 'l', 'O', 'u', 't', 'l', 'i', 'v', 'e', 's', 'U', 'n', 'i', 'v', 'e', 'r', 's', 'a', 'l', '"', '}', '}', ']', ',',
     '"', 's', 't', 'e', 'p', 's', '"', ':', '[', '{', '"', 'l', 'o', 'c', 'a', 't', 'i', 'o', 'n', '"', ':', '{', '"', 's',
     't', 'a', 'r', 't', '"', ':', '{', '"', 'l', 'i', 'n', 'e', '"', ':', '1', ',', '"', 'c', 'o', 'l', 'u', 'm', 'n', '"',
     ':', '0', '}', ',', '"', 'e', 'n', 'd', '"', ':', '{', '"', 'l', 'i', 'n', 'e', '"', ':', '1', ',', '"', 'c', 'o', 'l',
     'u', 'm', 'n', '"', ':', '9', '}', '}', ',', '"', 's', 't', 'a', 't', 'e', '"', ':', '[', '{', '"', 'f', 'r', 'o', 'm',
     '"', ':', '{', '"', 's', 't', 'a', 'r', 't', '"', ':', '{', '"', 'l', 'i', 'n', 'e', '"', ':', '1', ',', '"', 'c', 'o',
     'l', 'u', 'm', 'n', '"', ':', '0', '}', ',', '"', 'e', 'n', 'd', '"', ':', '{', '"', 'l', 'i', 'n', 'e', '"', ':', '1',
     ',', '"', 'c', 'o', 'l', 'u', 'm', 'n', '"', ':', '1', '}', '}', ',', '"', 't', 'o', '"', ':', '{', '"', 's', 't', 'a',
     'r', 't', '"', ':', '{', '"', 'l', 'i', 'n', 'e', '"', ':', '2', ',', '"', 'c', 'o', 'l', 'u', 'm', 'n', '"', ':', '0',
     '}', ',', '"', 'e', 'n', 'd', '"', ':', '{', '"', 'l', 'i', 'n', 'e', '"', ':', '2', ',', '"', 'c', 'o', 'l', 'u', 'm',
     'n', '"', ':', '1', '}', '}', ',', '"', 's', 't', 'a', 't', 'e', '"', ':', '[', '[', '"', 'x', '"', ',', '{', '"', 'i',
     's', '_', 'l', 'i', 'v', 'e', '"', ':', '{', '"', 't', 'y', 'p', 'e', '"', ':', '"', 'H', 'i', 'g', 'h', '"', ',', '"',
     'v', 'a', 'l', 'u', 'e', '"', ':', 't', 'r', 'u', 'e', '}', ',', '"', 't', 'y', 'p', 'e', '_', 'd', 'r', 'o', 'p', 'p',
     'a', 'b', 'l', 'e', '"', ':', '{', '"', 't', 'y', 'p', 'e', '"', ':', '"', 'L', 'o', 'w', '"', '}', ',', '"', 't', 'y',
     'p', 'e', '_', 'w', 'r', 'i', 't', 'e', 'a', 'b', 'l', 'e', '"', ':', '{', '"', 't', 'y', 'p', 'e', '"', ':', '"', 'N',
     'o', 'n', 'e', '"', ',', '"', 'v', 'a', 'l', 'u', 'e', '"', ':', 'f', 'a', 'l', 's', 'e', '}', ',', '"', 'p', 'a', 't',
     'h', '_', 'm', 'o', 'v', 'e', 'd', '"', ':', '{', '"', 't', 'y', 'p', 'e', '"', ':', '"', 'H', 'i', 'g', 'h', '"', ',',
     '"', 'v', 'a', 'l', 'u', 'e', '"', ':', '2', '}', ',', '"', 'p', 'a', 't', 'h', '_', 'u', 'n', 'i', 'n', 'i', 't', 'i',
     'a', 'l', 'i', 'z', 'e', 'd', '"', ':', '{', '"', 't', 'y', 'p', 'e', '"', ':', '"', 'N', 'o', 'n', 'e', '"', '}', ',',
     '"', 'l', 'o', 'a', 'n', '_', 'r', 'e', 'a', 'd', '_', 'r', 'e', 'f', 'i', 'n', 'e', 'd', '"', ':', '{', '"', 't', 'y',
     'p', 'e', '"', ':', '"', 'N', 'o', 'n', 'e', '"', '}', ',', '"', 'l', 'o', 'a', 'n', '_', 'w', 'r', 'i', 't', 'e', '_',
     'r', 'e', 'f', 'i', 'n', 'e', 'd', '"', ':', '{', '"', 't', 'y', 'p', 'e', '"', ':', '"', 'N', 'o', 'n', 'e', '"', ',',
     '"', 'v', 'a', 'l', 'u', 'e', '"', ':', '6', '}', ',', '"', 'l', 'o', 'a', 'n', '_', 'd', 'r', 'o', 'p', '_', 'r', 'e',
     'f', 'i', 'n', 'e', 'd', '"', ':', '{', '"', 't', 'y', 'p', 'e', '"', ':', '"', 'L', 'o', 'w', '"', '}', ',', '"', 'p',
     'e', 'r', 'm', 'i', 's', 's', 'i', 'o', 'n', 's', '"', ':', '{', '"', 'r', 'e', 'a', 'd', '"', ':', '{', '"', 't', 'y',
     'p', 'e', '"', ':', '"', 'H', 'i', 'g', 'h', '"', ',', '"', 'v', 'a', 'l', 'u', 'e', '"', ':', 't', 'r', 'u', 'e', '}',
     ',', '"', 'w', 'r', 'i', 't', 'e', '"', ':', '{', '"', 't', 'y', 'p', 'e', '"', ':', '"', 'L', 'o', 'w', '"', '}', ',',
     '"', 'd', 'r', 'o', 'p', '"', ':', '{', '"', 't', 'y', 'p', 'e', '"', ':', '"', 'N', 'o', 'n', 'e', '"', ',', '"', 'v',
     'a', 'l', 'u', 'e', '"', ':', 't', 'r', 'u', 'e', '}', '}', '}', ']', ']', '}', ']', '}', ']', ',', '"', 'l', 'o', 'a',
     'n', '_', 'p', 'o', 'i', 'n', 't', 's', '"', ':', '{', '"', '1', '2', '"', ':', '{', '"', 's', 't', 'a', 'r', 't', '"',
     ':', '{', '"', 'l', 'i', 'n', 'e', '"', ':', '1', ',', '"', 'c', 'o', 'l', 'u', 'm', 'n', '"', ':', '1', '}', ',', '"',
     'e', 'n', 'd', '"', ':', '{', '"', 'l', 'i', 'n', 'e', '"', ':', '1', ',', '"', 'c', 'o', 'l', 'u', 'm', 'n', '"', ':',
     '2', '}', '}', ',', '"', '7', '"', ':', '{', '"', 's', 't', 'a', 'r', 't', '"', ':', '{', '"', 'l', 'i', 'n', 'e', '"',
     ':', '2', ',', '"', 'c', 'o', 'l', 'u', 'm', 'n', '"', ':', '1', '}', ',', '"', 'e', 'n', 'd', '"', ':', '{', '"', 'l',
     'i', 'n', 'e', '"', ':', '2', ',', '"', 'c', 'o', 'l', 'u', 'm', 'n', '"', ':', '2', '}', '}', '}', ',', '"', 'l', 'o',
     'a', 'n', '_', 'r', 'e', 'g', 'i', 'o', 'n', 's', '"', ':', '{', '"', '1', '2', '"', ':', '{', '"', 'r', 'e', 'f', 'i',
     'n', 'e', 'r', '_', 'p', 'o', 'i', 'n', 't', '"', ':', '{', '"', 'L', 'o', 'a', 'n', '"', ':', '1', '2', '}', ',', '"',
     'r', 'e', 'f', 'i', 'n', 'e', 'd', '_', 'r', 'a', 'n', 'g', 'e', 's', '"', ':', '[', '{', '"', 's', 't', 'a', 'r', 't',
     '"', ':', '{', '"', 'l', 'i', 'n', 'e', '"', ':', '2', ',', '"', 'c', 'o', 'l', 'u', 'm', 'n', '"', ':', '0', '}', ',',
     '"', 'e', 'n', 'd', '"', ':', '{', '"', 'l', 'i', 'n', 'e', '"', ':', '3', ',', '"', 'c', 'o', 'l', 'u', 'm', 'n', '"',
     ':', '0', '}', '}', ']', '}', '}', ',', '"', 'm', 'o', 'v', 'e', '_', 'p', 'o', 'i', 'n', 't', 's', '"', ':', '{', '"',
     '0', '"', ':', '{', '"', 's', 't', 'a', 'r', 't', '"', ':', '{', '"', 'l', 'i', 'n', 'e', '"', ':', '4', ',', '"', 'c',
     'o', 'l', 'u', 'm', 'n', '"', ':', '1', '}', ',', '"', 'e', 'n', 'd', '"', ':', '{', '"', 'l', 'i', 'n', 'e', '"', ':',
     '4', ',', '"', 'c', 'o', 'l', 'u', 'm', 'n', '"', ':', '2', '}', '}', '}', ',', '"', 'm', 'o', 'v', 'e', '_', 'r', 'e',
     'g', 'i', 'o', 'n', 's', '"', ':', '{', '"', '0', '"', ':', '{', '"', 'r', 'e', 'f', 'i', 'n', 'e', 'r', '_', 'p', 'o',
     'i', 'n', 't', '"', ':', '{', '"', 'M', 'o', 'v', 'e', '"', ':', '0', '}', ',', '"', 'r', 'e', 'f', 'i', 'n', 'e', 'd',
     '_', 'r', 'a', 'n', 'g', 'e', 's', '"', ':', '[', ']', '}', '}', '}', '}', ',', '{', '"', 'E', 'r', 'r', '"', ':', '{',
     '"', 't', 'y', 'p', 'e', '"', ':', '"', 'B', 'u', 'i', 'l', 'd', 'E', 'r', 'r', 'o', 'r', '"', ',', '"', 'r', 'a', 'n',
     'g', 'e', '"', ':', '{', '"', 's', 't', 'a', 'r', 't', '"', ':', '{', '"', 'l', 'i', 'n', 'e', '"', ':', '5', ',', '"',
     'c', 'o', 'l', 'u', 'm', 'n', '"', ':', '0', '}', ',', '"', 'e', 'n', 'd', '"', ':', '{', '"', 'l', 'i', 'n', 'e', '"',
     ':', '6', ',', '"', 'c', 'o', 'l', 'u', 'm', 'n', '"', ':', '0', '}', '}', '}', '}', ',', '{', '"', 'E', 'r', 'r', '"',
     ':', '{', '"', 't', 'y', 'p', 'e', '"', ':', '"', 'A', 'n', 'a', 'l', 'y', 's', 'i', 's', 'E', 'r', 'r', 'o', 'r', '"',
     ',', '"', 'm', 's', 'g', '"', ':', '"', 'n', 'o', '"', '}', '}', ',', '{', '"', 'E', 'r', 'r', '"', ':', '{', '"', 't',
     'y', 'p', 'e', '"', ':', '"', 'B', 'u', 'i', 'l', 'd', 'E', 'r', 'r', 'o', 'r', '"', ',', '"', 'r', 'a', 'n', 'g', 'e',
     '"', ':', 'n', 'u', 'l', 'l', '}', '}', ']'] := by decide +kernel

/-- The names of the other kinds of flow. -/
example : [Flow.Kind.missingUniversalConstraint, .localInvalidatedAtExit, .ok].map (fun k => write (flowKindJson k)) =
    [['"', 'M', 'i', 's', 's', 'i', 'n', 'g', 'U', 'n', 'i', 'v', 'e', 'r', 's', 'a', 'l', 'C', 'o', 'n', 's', 't', 'r', 'a', 'i', 'n', 't', '"'],
     ['"', 'L', 'o', 'c', 'a', 'l', 'I', 'n', 'v', 'a', 'l', 'i', 'd', 'a', 't', 'e', 'd', 'A', 't', 'E', 'x', 'i', 't', '"'], ['"', 'O', 'k', '"']] := by
  decide +kernel

/-- What the page reads: the points in the order of the keys. -/
example : ((read (write (outputJson sampleOutput))).bind asOutput).map (fun o => (o.loanPoints.map (·.1), o.steps == sampleOutput.steps)) =
    some ([7, 12], true) := by decide +kernel

/-- The texts of results of other kinds. -/
example : [write (resultJson .success), write (resultJson (.other ['x']))] =
    [['{', '"', 't', 'y', 'p', 'e', '"', ':', '"', 'S', 'u', 'c', 'c', 'e', 's', 's', '"', '}'],
    ['{', '"', 't', 'y', 'p', 'e', '"', ':', '"', 'E', 'r', 'r', 'o', 'r', '"', ',', '"', 'v', 'a', 'l', 'u', 'e', '"', ':',
     '{', '"', 't', 'y', 'p', 'e', '"', ':', '"', 'O', 't', 'h', 'e', 'r', '"', ',', '"', 'v', 'a', 'l', 'u', 'e', '"', ':',
     '"', 'x', '"', '}', '}']] := by decide +kernel

end Verif.Wire
