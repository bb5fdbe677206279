import Verif.Overlap.Model
/-!
# What it means for two places to share memory

Memory below a variable is a tree: a cell is reached by a list of steps.  A place is a set of cells, which depends on the
lengths of slices and on the values of index variables.
-/
namespace Verif.Overlap.Spec

variable {T : Type}

/-- A step from a value to a part of it. -/
inductive Step where
  | deref
  | field (i : Nat)
  | variant (v : Nat)
  | elem (k : Nat)
  deriving DecidableEq, Repr

/-- The projection selects element `k` of `n`. -/
def Selects (n : Nat) : Proj → Nat → Prop
  | .index _, k => k < n
  | .constantIndex o m false, k => m ≤ n ∧ k = o ∧ k < n
  | .constantIndex o m true, k => m ≤ n ∧ k + o = n ∧ k < n
  | .subslice lo hi false, k => lo ≤ k ∧ k < hi ∧ hi ≤ n
  | .subslice lo hi true, k => lo ≤ k ∧ k + hi < n
  | _, _ => False

/-- The cell lies in the place, or below it; `len` gives the lengths of slices, by the steps that lead to them. -/
inductive In (K : T → Kind T) : (List Step → Nat) → T → List Proj → List Step → Prop
  | rest {len t c} : In K len t [] c
  | deref {len t s t' es c} : K t = .ref s t' → In K (fun q => len (.deref :: q)) t' es c →
      In K len t (.deref :: es) (.deref :: c)
  | field {len t f i es c} : K t = .struct f → In K (fun q => len (.field i :: q)) (f i) es c →
      In K len t (.field i :: es) (.field i :: c)
  | union {len t f i es c} : K t = .union f → In K (fun q => len (.field i :: q)) (f i) es c →
      In K len t (.field i :: es) (.field i :: c)
  | variant {len t f v es c} : K t = .enum f → In K (fun q => len (.variant v :: q)) (f v) es c →
      In K len t (.downcast v :: es) (.variant v :: c)
  | array {len t n t' e k es c} : K t = .array n t' → Selects n e k → In K (fun q => len (.elem k :: q)) t' es c →
      In K len t (e :: es) (.elem k :: c)
  | slice {len t t' e k es c} : K t = .slice t' → Selects (len []) e k → In K (fun q => len (.elem k :: q)) t' es c →
      In K len t (e :: es) (.elem k :: c)

/-- The two cells are the same, or lie in different fields of a union. -/
inductive Alias (K : T → Kind T) : T → List Step → List Step → Prop
  | same {t c} : Alias K t c c
  | union {t f i j c d} : K t = .union f → i ≠ j → Alias K t (.field i :: c) (.field j :: d)
  | deref {t s t' c d} : K t = .ref s t' → Alias K t' c d → Alias K t (.deref :: c) (.deref :: d)
  | field {t f i c d} : K t = .struct f → Alias K (f i) c d → Alias K t (.field i :: c) (.field i :: d)
  | ufield {t f i c d} : K t = .union f → Alias K (f i) c d → Alias K t (.field i :: c) (.field i :: d)
  | variant {t f v c d} : K t = .enum f → Alias K (f v) c d → Alias K t (.variant v :: c) (.variant v :: d)
  | array {t n t' k c d} : K t = .array n t' → Alias K t' c d → Alias K t (.elem k :: c) (.elem k :: d)
  | slice {t t' k c d} : K t = .slice t' → Alias K t' c d → Alias K t (.elem k :: c) (.elem k :: d)

/-- For some lengths of slices and some values of indices, the two places have memory in common. -/
def Share (K : T → Kind T) (t : T) (p q : List Proj) : Prop :=
  ∃ len c d, In K len t p c ∧ In K len t q d ∧ Alias K t c d

/-- Two places of a function share memory. -/
def Shares (D : Decls T) (p q : Place) : Prop :=
  p.local_ = q.local_ ∧ Share D.kind (D.ty p.local_) p.projection q.projection

/-- The projection is well typed.  As in MIR, elements of arrays are never counted from the end, parts of slices always are,
and a part of an array or slice is the last step of a place. -/
inductive Typed (K : T → Kind T) : T → List Proj → Prop
  | nil {t} : Typed K t []
  | deref {t s t' es} : K t = .ref s t' → Typed K t' es → Typed K t (.deref :: es)
  | field {t f i es} : K t = .struct f → Typed K (f i) es → Typed K t (.field i :: es)
  | union {t f i es} : K t = .union f → Typed K (f i) es → Typed K t (.field i :: es)
  | downcast {t f v es} : K t = .enum f → Typed K (f v) es → Typed K t (.downcast v :: es)
  | indexArray {t n t' l es} : K t = .array n t' → Typed K t' es → Typed K t (.index l :: es)
  | indexSlice {t t' l es} : K t = .slice t' → Typed K t' es → Typed K t (.index l :: es)
  | constArray {t n t' o m es} : K t = .array n t' → o < n → m ≤ n → Typed K t' es → Typed K t (.constantIndex o m false :: es)
  | constSlice {t t' o m es} : K t = .slice t' → o < m → Typed K t' es → Typed K t (.constantIndex o m false :: es)
  | constEnd {t t' o m es} : K t = .slice t' → 0 < o → o ≤ m → Typed K t' es → Typed K t (.constantIndex o m true :: es)
  | subArray {t n t' lo hi} : K t = .array n t' → hi ≤ n → Typed K t [.subslice lo hi false]
  | subSlice {t t' lo hi} : K t = .slice t' → Typed K t [.subslice lo hi true]

/-- The step selects something: no element of an empty array, no empty part of an array. -/
def Selective (K : T → Kind T) (t : T) : Proj → Prop
  | .index _ => ∀ n t', K t = .array n t' → 0 < n
  | .subslice lo hi false => lo < hi
  | _ => True

/-- Each step of the place selects something. -/
def Filled (K : T → Kind T) : T → List Proj → Prop
  | _, [] => True
  | t, e :: es => Selective K t e ∧ Filled K (next K t e) es

/-- The place does not lead through a shared reference: rustc records no loans of other places. -/
def Tracked (K : T → Kind T) : T → List Proj → Prop
  | _, [] => True
  | t, e :: es => ¬ (e = .deref ∧ ∃ t', K t = .ref true t') ∧ Tracked K (next K t e) es

/-- The three conditions on places of a function. -/
def TypedPlace (D : Decls T) (p : Place) : Prop := Typed D.kind (D.ty p.local_) p.projection
def FilledPlace (D : Decls T) (p : Place) : Prop := Filled D.kind (D.ty p.local_) p.projection
def TrackedPlace (D : Decls T) (p : Place) : Prop := Tracked D.kind (D.ty p.local_) p.projection

end Verif.Overlap.Spec
