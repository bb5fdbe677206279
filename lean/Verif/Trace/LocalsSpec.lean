import Verif.Trace.Locals

/-! # What it means for a variable to be shown (C95, C96) -/
namespace Verif.Trace.Locals.Spec

open Verif.Value

/-- Variable `l` of the function is known to the reader of the source by the name `n`: the result (unless
it is unit), or a variable of the debug info that is not part of another one. -/
inductive Named (b : Body) (l : Nat) (v : Var) : String → Prop
  | result : l = 0 → v.isUnit = false → Named b l v "(return)"
  | source {n} : 0 < l → Debug.place l 0 ∈ b.debug → v.name = some n → Named b l v n
  | unprinted : 0 < l → Debug.place l 0 ∈ b.debug → v.name = none → Named b l v "(tmp)"

/-- The layout has a field at this offset. -/
inductive HasField : LayFields → Nat → Lay → Prop
  | here {off l rest} : HasField (.cons off l rest) off l
  | there {off l rest off' l'} : HasField rest off' l' → HasField (.cons off l rest) off' l'

/-- All bytes from `lo` up to `hi` are initialised. -/
def AllInit (init : Nat → Bool) (lo hi : Nat) : Prop := ∀ i, lo ≤ i → i < hi → init i = true

/-- The parts of the value at the first level are initialised, padding inside them included. -/
inductive PartsInit (size : Nat) (init : Nat → Bool) : Lay → Prop
  | scalar {n} : AllInit init 0 size → PartsInit size init (.scalar n)
  | array {e c} : AllInit init 0 size → PartsInit size init (.array e c)
  | fields {fs n} : (∀ off l, HasField fs off l → AllInit init off (off + l.size)) →
      PartsInit size init (.fields fs n)
  | enum {o t p n} : AllInit init o (o + t) → PartsInit size init (.enum o t p n)

/-- The variable holds a value. -/
inductive Holds (st : World) (lay : Lay) : State → Prop
  | empty : lay.size = 0 → Holds st lay .uninit
  | value : Holds st lay .value
  | memory {a} : PartsInit (st.mem.size a) (st.init a) lay → Holds st lay (.memory a)

/-- Variable `l` of the frame is shown under the name `n`, read from `op`. -/
def Shows (st : World) (b : Body) (l : Nat) (v : Var) (n : String) (op : Op) : Prop :=
  Named b l v n ∧ v.op = .ok op ∧ ∃ lay ty, v.layout = .ok (lay, ty) ∧ Holds st lay v.state

/-- Looking at the variable stops the recording with `e`. -/
inductive Breaks (st : World) (b : Body) (l : Nat) (v : Var) : Err → Prop
  | layout {n e} : Named b l v n → v.state ≠ .dead → v.layout = .error e → Breaks st b l v e
  | missing {n a x} : Named b l v n → v.state = .memory a → v.layout = .ok x → st.mem.kind a = none →
      Breaks st b l v .panic
  | union {n a k ty} : Named b l v n → v.state = .memory a → v.layout = .ok (.union k, ty) →
      Breaks st b l v .panic
  | operand {n e lay ty} : Named b l v n → v.layout = .ok (lay, ty) → Holds st lay v.state →
      (∀ a, v.state = .memory a → st.mem.kind a ≠ none) → v.op = .error e → Breaks st b l v e

/-- Variable `v` is number `l` of user frame number `k`. -/
def At (bodies : List Body) (k l : Nat) (b : Body) (v : Var) : Prop :=
  bodies[k]? = some b ∧ b.vars[l]? = some v

/-! ## Bytes of a value -/

mutual
/-- Byte `i` is part of a value of this layout that starts at `base` (and not padding).  Nothing is known
about the bytes of a union. -/
def ValueByte : Lay → Nat → Nat → Prop
  | .scalar n, base, i => base ≤ i ∧ i < base + n
  | .array e c, base, i => ∃ j, j < c ∧ ValueByte e (base + e.size * j) i
  | .fields fs _, base, i => ValueByteF fs base i
  | .enum o t p _, base, i => (base + o ≤ i ∧ i < base + o + t) ∨ ValueByteF p base i
  | .union _, _, _ => False
/-- A byte of one of the fields. -/
def ValueByteF : LayFields → Nat → Nat → Prop
  | .nil, _, _ => False
  | .cons off l rest, base, i => ValueByte l (base + off) i ∨ ValueByteF rest base i
end

mutual
/-- Parts lie inside the whole. -/
def Fits : Lay → Prop
  | .scalar _ => True
  | .array e _ => Fits e
  | .fields fs n => FitsF fs n
  | .enum o t p n => o + t ≤ n ∧ FitsF p n
  | .union _ => True
/-- The fields lie inside `n` bytes. -/
def FitsF : LayFields → Nat → Prop
  | .nil, _ => True
  | .cons off l rest, n => off + l.size ≤ n ∧ Fits l ∧ FitsF rest n
end

/-- Every byte of the layout is part of the value: no padding. -/
def Dense (l : Lay) : Prop := ∀ i, i < l.size → ValueByte l 0 i

/-- The whole value is initialised. -/
def ValueInit (init : Nat → Bool) (l : Lay) : Prop := ∀ i, ValueByte l 0 i → init i = true

end Verif.Trace.Locals.Spec
