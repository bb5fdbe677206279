import Verif.Permissions.Model
/-!
# Specification: what a declaration allows
-/
namespace Verif.Permissions.Spec

/-- The mutability of a place according to the Rust reference.  The pair is: mutable; and reachable
through a unique path (mutable if the variable were declared `mut`).  A variable is mutable iff declared
so; a field, element or boxed content is mutable iff the whole is; behind `&mut` a place is mutable iff
the reference is reached by a unique path; behind `&` and `*const` nothing is; behind `*mut`
everything is. -/
def mutStep (s : Ty × Bool × Bool) (e : Elem) : Ty × Bool × Bool :=
  match e, s.1 with
  | .deref, .ref true t => (t, s.2.2, s.2.2)
  | .deref, .ref false t => (t, false, false)
  | .deref, .ptr true t => (t, true, true)
  | .deref, .ptr false t => (t, false, false)
  | .deref, .box t => (t, s.2)
  | _, t => (projTy t e, s.2)

def RustMutable (d : Decls) (p : Place) : Prop :=
  (p.projection.foldl mutStep (d.ty p.local_, d.isMut p.local_, true)).2.1 = true

/-- The places inside a value of a type, with their types: what a reference, pointer or box points to, a
field, an element of an array, a run of elements, a value seen as one of its variants. -/
inductive Inside (t : Ty) : List Elem → Ty → Prop
  | whole : Inside t [] t
  | ref {es m u} : Inside t es (.ref m u) → Inside t (es ++ [.deref]) u
  | ptr {es m u} : Inside t es (.ptr m u) → Inside t (es ++ [.deref]) u
  | box {es u} : Inside t es (.box u) → Inside t (es ++ [.deref]) u
  | field {es u} (i : Nat) (v : Ty) : Inside t es u → Inside t (es ++ [.field i v]) v
  | index {es u} (l : Nat) : Inside t es (.array u) → Inside t (es ++ [.index l]) u
  | constant {es u} (o : Nat) : Inside t es (.array u) → Inside t (es ++ [.constantIndex o]) u
  | run {es u} (lo hi : Nat) : Inside t es (.array u) → Inside t (es ++ [.subslice lo hi]) (.array u)
  | variant {es id b} (v : Nat) : Inside t es (.adt id b) → Inside t (es ++ [.downcast v]) (.adt id b)

/-- A value may be moved out of a place unless the place is behind a reference or raw pointer, an
element of an array or slice, or a part of a value with a destructor. -/
def RustMovable (d : Decls) (p : Place) : Prop :=
  ∀ (pre suf : List Elem) (e : Elem), p.projection = pre ++ e :: suf →
    match tyFrom (d.ty p.local_) pre, e with
    | .ref _ _, .deref => False
    | .ptr _ _, .deref => False
    | .adt _ true, _ => False
    | _, .index _ => False
    | _, .constantIndex _ => False
    | _, .subslice _ _ => False
    | _, _ => True

/-- `p` holds at most the permissions `q`. -/
def Le (p q : Perms) : Prop :=
  (p.read = true → q.read = true) ∧ (p.write = true → q.write = true) ∧ (p.drop = true → q.drop = true)

/-- The place dereferences a raw pointer. -/
def DerefsRaw (d : Decls) (p : Place) : Prop :=
  ∃ pre suf m t, p.projection = pre ++ .deref :: suf ∧ tyFrom (d.ty p.local_) pre = .ptr m t

/-- The place dereferences something that is not a reference (a box or raw pointer). -/
def DerefsNonRef (d : Decls) (p : Place) : Prop :=
  ∃ pre suf, p.projection = pre ++ .deref :: suf ∧ ∀ m t, tyFrom (d.ty p.local_) pre ≠ .ref m t

end Verif.Permissions.Spec
