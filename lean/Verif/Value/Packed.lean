import Verif.Value.LayoutProps

/-! # What the address locator computes for layouts the compiler reordered (C17) -/
namespace Verif.Value

open Spec

mutual
/-- The same type, laid out in declaration order without gaps. -/
def Spec.pack : Ty → Ty
  | .struct fs n => .struct (packFields fs 0) n
  | .tuple fs n => .tuple (packFields fs 0) n
  | .array e c => .array (pack e) c
  | ty => ty
/-- Fields from the running offset `o` on. -/
def Spec.packFields : Fields → Nat → Fields
  | .nil, _ => .nil
  | .cons _ ty rest, o => .cons o (pack ty) (packFields rest (o + ty.size))
end

mutual
/-- The fields of every struct and tuple together are no larger than the whole. -/
def Spec.Roomy : Ty → Prop
  | .struct fs n => RoomyFields fs 0 n
  | .tuple fs n => RoomyFields fs 0 n
  | .array e _ => Roomy e
  | _ => True
/-- Fields from the running offset `o` on. -/
def Spec.RoomyFields : Fields → Nat → Nat → Prop
  | .nil, o, n => o ≤ n
  | .cons _ ty rest, o, n => Roomy ty ∧ RoomyFields rest (o + ty.size) n
end

theorem pack_size : ∀ ty : Ty, (pack ty).size = ty.size
  | .struct _ _ => by simp [pack, Ty.size]
  | .tuple _ _ => by simp [pack, Ty.size]
  | .array e c => by simp [pack, Ty.size, pack_size e]
  | .prim _ => rfl
  | .ptr _ => rfl
  | .opaqueStruct _ => rfl
  | .enum _ => rfl
  | .union _ => rfl
  | .other _ => rfl

mutual
theorem pack_inOrder : ∀ ty : Ty, Roomy ty → InOrder (pack ty)
  | .struct fs n, h => by
    simp only [Roomy] at h
    simp only [pack, InOrder]
    exact packFields_inOrder fs 0 n h
  | .tuple fs n, h => by
    simp only [Roomy] at h
    simp only [pack, InOrder]
    exact packFields_inOrder fs 0 n h
  | .array e c, h => by
    simp only [Roomy] at h
    simp only [pack, InOrder]
    exact pack_inOrder e h
  | .prim _, _ => by simp [pack, InOrder]
  | .ptr _, _ => by simp [pack, InOrder]
  | .opaqueStruct _, _ => by simp [pack, InOrder]
  | .enum _, _ => by simp [pack, InOrder]
  | .union _, _ => by simp [pack, InOrder]
  | .other _, _ => by simp [pack, InOrder]
theorem packFields_inOrder : ∀ (fs : Fields) (o n : Nat), RoomyFields fs o n →
    InOrderFields (packFields fs o) o n
  | .nil, o, n, h => by simpa [packFields, InOrderFields, RoomyFields] using h
  | .cons off ty rest, o, n, h => by
    simp only [RoomyFields] at h
    simp only [packFields, InOrderFields, pack_size]
    exact ⟨trivial, pack_inOrder ty h.1, packFields_inOrder rest _ n h.2⟩
end

mutual
theorem locate_pack (target : Nat) : ∀ (ty : Ty) (base : Nat),
    locate target (pack ty) base = locate target ty base
  | .struct fs n, base => by
    simp only [pack]
    unfold locate
    dsimp only
    rw [locateFields_pack target fs 0 base 0]
  | .tuple fs n, base => by
    simp only [pack]
    unfold locate
    dsimp only
    rw [locateFields_pack target fs 0 base 0]
  | .array e c, base => by
    simp only [pack]
    unfold locate
    dsimp only
    simp only [pack_size, locate_pack target e]
  | .prim _, _ => by simp [pack]
  | .ptr _, _ => by simp [pack]
  | .opaqueStruct _, _ => by simp [pack]
  | .enum _, _ => by simp [pack]
  | .union _, _ => by simp [pack]
  | .other _, _ => by simp [pack]
theorem locateFields_pack (target : Nat) : ∀ (fs : Fields) (i offset o : Nat),
    locateFields target (packFields fs o) i offset = locateFields target fs i offset
  | .nil, i, offset, o => by simp [packFields]
  | .cons off ty rest, i, offset, o => by
    simp only [packFields]
    unfold locateFields
    rw [pack_size, locate_pack target ty offset, locateFields_pack target rest (i + 1) (offset + ty.size) _]
end

/-- **C17 (any layout).** For every type, whatever offsets the compiler chose, the locator computes the path
of the address in the layout with the fields in declaration order and without gaps. So the path drawn is
right exactly if it leads to the same address in both layouts. -/
theorem C17_packed (ty : Ty) (base a : Nat) (t' : Ty) (hr : Roomy ty) (h : PartAt (pack ty) base a t') :
    ∃ path t'', locate a ty base = .ok path ∧ Denotes (pack ty) base path a t'' := by
  have := C17_locate_partial (pack ty) base a t' (pack_inOrder ty hr) h
  rwa [locate_pack] at this

example : pack (.struct (.cons 2 (.prim 1) (.cons 3 (.prim 1) (.cons 0 (.prim 2) .nil))) 4) =
    .struct (.cons 0 (.prim 1) (.cons 1 (.prim 1) (.cons 2 (.prim 2) .nil))) 4 := by
  simp [pack, packFields, Ty.size]

end Verif.Value
