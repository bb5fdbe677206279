import Verif.Value.Layout
/-!
# Specification: what a path means in a layout
-/
namespace Verif.Value.Spec
open Verif.Value

/-- The `i`-th field: offset and type. -/
def field : Fields → Nat → Option (Nat × Ty)
  | .nil, _ => none
  | .cons off ty _, 0 => some (off, ty)
  | .cons _ _ rest, i + 1 => field rest i

/-- Following `path` from a value of type `ty` at address `base`, using the offsets the compiler
chose, leads to a part of type `ty'` at address `a`. -/
inductive Denotes : Ty → Nat → List PSeg → Nat → Ty → Prop
  | here {ty base} : Denotes ty base [] base ty
  | struct {fs n i off t base path a t'} : field fs i = some (off, t) →
      Denotes t (base + off) path a t' → Denotes (.struct fs n) base (.field i :: path) a t'
  | tuple {fs n i off t base path a t'} : field fs i = some (off, t) →
      Denotes t (base + off) path a t' → Denotes (.tuple fs n) base (.field i :: path) a t'
  | elem {e n i base path a t'} : i < n → Denotes e (base + i * e.size) path a t' →
      Denotes (.array e n) base (.index i :: path) a t'

mutual
/-- The compiler laid every struct and tuple out in declaration order without gaps. -/
def InOrder : Ty → Prop
  | .struct fs n => InOrderFields fs 0 n
  | .tuple fs n => InOrderFields fs 0 n
  | .array e _ => InOrder e
  | _ => True
/-- Fields from the running offset `o` on; `n` is the size of the whole. -/
def InOrderFields : Fields → Nat → Nat → Prop
  | .nil, o, n => o ≤ n
  | .cons off ty rest, o, n => off = o ∧ InOrder ty ∧ InOrderFields rest (o + ty.size) n
end

/-- `a` is the address of a non-empty part (of type `t'`) of the value of type `ty` at `base`. -/
def PartAt (ty : Ty) (base a : Nat) (t' : Ty) : Prop := 0 < t'.size ∧ ∃ path, Denotes ty base path a t'

end Verif.Value.Spec
