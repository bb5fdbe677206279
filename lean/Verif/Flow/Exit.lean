import Verif.Flow.Props
import Verif.Overlap.Props
/-!
# C114: loans that end with the function

`check_for_invalidation_at_exit` (`permissions/flow.rs:301-345`) and its use (`flow.rs:450-464`): the regions of the loans in
error that it accepts are the `dangling` regions of `Flow.Input`.
-/
namespace Verif.Flow
open Verif.Overlap (Decls Place)

variable {T : Type}

/-- A loan: the borrowed place and the region (`BorrowData`, rustc). -/
structure Loan where
  place : Place
  region : Nat

/-- What the check asks of the function. -/
structure Function (T : Type) where
  decls : Decls T
  /-- `is_ref_to_thread_local` (rustc) -/
  threadLocal : Nat → Bool
  /-- `locals_are_invalidated_at_exit` -/
  invalidated : Bool

/-- `root_place` (flow.rs:311-329). -/
def rootPlace (F : Function T) (p : Place) : Place := ⟨p.local_, if F.threadLocal p.local_ then [.deref] else []⟩

/-- `check_for_invalidation_at_exit` (flow.rs:301-345); `none` is a panic. -/
def invalidatedAtExit (F : Function T) (p : Place) : Option Bool :=
  let willBeDropped := F.threadLocal p.local_ || F.invalidated
  if !willBeDropped then some false
  else Overlap.placesConflict F.decls p (rootPlace F p)

/-- `Place::is_indirect` (rustc). -/
def indirect (p : Place) : Bool := p.projection.any (fun e => decide (e = .deref))

/-- The loop over the loans in error (flow.rs:456-464), before mapping to components. -/
def danglingOf (F : Function T) : List Loan → Option (List Nat)
  | [] => some []
  | l :: ls =>
    match invalidatedAtExit F l.place, danglingOf F ls with
    | some b, some rs => some (if b then l.region :: rs else rs)
    | _, _ => none

/-- The facts of the flow analysis, with the loans of the function and those in error. -/
def inputOf (F : Function T) (constraints : List (Nat × Nat)) (placeholder returnRegions : List Nat)
    (known : List (Nat × Nat)) (loans errors : List Loan) : Option Input :=
  (danglingOf F errors).map fun d =>
    { constraints, placeholder, returnRegions, known, borrows := loans.map fun l => (l.region, indirect l.place), dangling := d }

/-- Places of which rustc records loans: well typed, and not behind shared references, other than references to
thread-locals. -/
def Recorded (F : Function T) (p : Place) : Prop :=
  if F.threadLocal p.local_ then
    p.projection = [] ∨ ∃ es, p.projection = .deref :: es ∧
      Overlap.Spec.Tracked F.decls.kind (Overlap.next F.decls.kind (F.decls.ty p.local_) .deref) es
  else Overlap.Spec.TrackedPlace F.decls p

/-- **C114 (every loan).** The check does not look at the place: it answers yes for every loan of a thread-local, and for
every loan, or for none, of anything else. -/
theorem C114_every_loan (F : Function T) {p : Place} (h : Recorded F p) :
    invalidatedAtExit F p = some (F.threadLocal p.local_ || F.invalidated) := by
  have hroot : ∀ (K : T → Overlap.Kind T) t es, Overlap.Spec.Tracked K t es → Overlap.conflictFrom K t es [] = some true := by
    intro K t es ht
    cases es with
    | nil => rfl
    | cons e es => exact Overlap.remainder_tracked ht
  unfold Recorded at h
  unfold invalidatedAtExit
  cases ht : F.threadLocal p.local_ with
  | true =>
    simp only [ht, if_true] at h
    simp only [Bool.true_or, Bool.not_true, Bool.false_eq_true, if_false, Overlap.placesConflict, rootPlace, ht, if_true]
    rcases h with h | ⟨es, h, h'⟩
    · rw [h]; rfl
    · rw [h]
      exact hroot _ _ _ h'
  | false =>
    simp only [ht, Bool.false_eq_true, if_false] at h
    simp only [Bool.false_or, Overlap.placesConflict, rootPlace, ht, if_true, Bool.false_eq_true, if_false]
    rw [hroot _ _ _ h]
    cases F.invalidated <;> rfl

/-- **C114 (regions).** If locals end with the function, the regions taken to dangle are those of all loans in error. -/
theorem C114_all_errors (F : Function T) (h : F.invalidated = true) (errors : List Loan)
    (hr : ∀ l ∈ errors, Recorded F l.place) : danglingOf F errors = some (errors.map Loan.region) := by
  induction errors with
  | nil => rfl
  | cons l ls ih =>
    unfold danglingOf
    rw [C114_every_loan F (hr l List.mem_cons_self), ih fun m hm => hr m (List.mem_cons_of_mem _ hm), h]
    simp

/-- `fn f(r: &mut S) { let a = &mut r.x; .. }`: variable 1 is an exclusive reference to a struct. -/
def reborrower : Function Nat where
  decls := { kind := fun t => if t = 0 then .ref false 1 else if t = 1 then .struct fun _ => 2 else .leaf, ty := fun _ => 0 }
  threadLocal := fun _ => false
  invalidated := true

/-- **C114 (negation: reborrows).** A loan of what the caller lent is taken to end with the function, too. -/
theorem C114_reborrow : ∃ (F : Function Nat) (p : Place), Recorded F p ∧ indirect p = true ∧ F.threadLocal p.local_ = false ∧
    invalidatedAtExit F p = some true :=
  ⟨reborrower, ⟨1, [.deref, .field 0]⟩, ⟨by simp [reborrower], by simp [reborrower], trivial⟩, by decide, rfl, by decide⟩

/-- A flow into a region of the caller is never of the kind "local invalidated at exit". -/
theorem kind_into_caller (f : Flows) {frm to : Nat} (h : f.isAbstractMember to = true) :
    f.flowKind frm to ≠ .localInvalidatedAtExit := by
  unfold Flows.flowKind Flows.hasLocalMember
  rw [h]
  split
  · simp
  · split
    · simp
    · rename_i hl
      split
      · simp
      · have : trReachable f.n f.containsLocal (f.scc frm) = [] := by simpa using hl
        rw [this]
        simp

/-- **C114 (never shown).** What is shown at a use is never that a local is invalidated at exit. -/
theorem C114_never_shown (f : Flows) (ctx sp : Option (List (Nat × Nat))) :
    f.flowPermission ctx sp ≠ some .localInvalidatedAtExit := by
  unfold Flows.flowPermission
  split
  · simp
  · split
    · simp
    · split
      · simp
      · rename_i ctx _ _ sp
        intro h
        simp only [Option.some.injEq] at h
        cases hv : (ctx.filterMap fun e =>
            if f.isAbstractMember e.2 && !(f.flowKind e.1 e.2).valid && sp.any (fun g => g.2 == e.1 || g.2 == e.2) then
              some (f.flowKind e.1 e.2) else none) with
        | nil => rw [hv] at h; simp at h
        | cons k ks =>
          rw [hv] at h
          simp only [List.head?_cons, Option.getD_some] at h
          have hk : k ∈ k :: ks := List.mem_cons_self
          rw [← hv, List.mem_filterMap] at hk
          obtain ⟨e, -, he⟩ := hk
          split at he
          · rename_i hc
            simp only [Bool.and_eq_true] at hc
            simp only [Option.some.injEq] at he
            exact kind_into_caller f hc.1.1 (he.trans h)
          · simp at he

/-- **C114 (no effect).** Which loans are taken to end with the function has no effect on what is shown. -/
theorem C114_no_effect {i : Input} {f g : Flows} {d : List Nat} (hf : computeFlows i = some f)
    (hg : computeFlows { i with dangling := d } = some g) (ctx sp : Option (List (Nat × Nat))) :
    f.flowPermission ctx sp = g.flowPermission ctx sp := by
  obtain ⟨-, h1, h2, h3, h4, h5, h6, h7⟩ := computeFlows_some hf
  obtain ⟨-, k1, k2, k3, k4, k5, k6, k7⟩ := computeFlows_some hg
  have hgf : g = { f with danglingSources := g.danglingSources } := by
    cases f; cases g
    simp only at h1 h2 h3 h4 h5 h6 k1 k2 k3 k4 k5 k6
    subst h1 h2 h3 h4 h5 h6 k1 k2 k3 k4 k5 k6
    rfl
  generalize g.danglingSources = x at hgf
  subst hgf
  unfold Flows.flowPermission
  have hab : ∀ o, Flows.isAbstractMember { f with danglingSources := x } o = f.isAbstractMember o := fun _ => rfl
  have hkind : ∀ frm to, f.isAbstractMember to = true →
      Flows.flowKind { f with danglingSources := x } frm to = f.flowKind frm to := by
    intro frm to h
    unfold Flows.flowKind Flows.hasLocalMember Flows.isSpecified
    rw [hab, h]
    dsimp only
    split
    · rfl
    · split
      · rfl
      · rename_i hl
        split
        · rfl
        · have : trReachable f.n f.containsLocal (f.scc frm) = [] := by simpa using hl
          rw [this]
          simp
  have hfun : ∀ sp : List (Nat × Nat), (fun e : Nat × Nat =>
      if Flows.isAbstractMember { f with danglingSources := x } e.2 &&
        !(Flows.flowKind { f with danglingSources := x } e.1 e.2).valid && sp.any (fun g => g.2 == e.1 || g.2 == e.2) then
        some (Flows.flowKind { f with danglingSources := x } e.1 e.2) else none) = fun e =>
      if f.isAbstractMember e.2 && !(f.flowKind e.1 e.2).valid && sp.any (fun g => g.2 == e.1 || g.2 == e.2) then
        some (f.flowKind e.1 e.2) else none := by
    intro sp
    funext e
    rw [hab]
    cases ha : f.isAbstractMember e.2 with
    | false => rfl
    | true => rw [hkind e.1 e.2 ha]
  cases ctx with
  | none => rfl
  | some ctx =>
    dsimp only
    simp only [hab]
    split
    · rfl
    · cases sp with
      | none => rfl
      | some sp =>
        have := hfun sp
        simp only [hab] at this
        dsimp only
        rw [this]

/-- The kind itself exists: of a flow between regions of the function. -/
example : ∃ i f, computeFlows i = some f ∧ f.flowKind 0 1 = .localInvalidatedAtExit :=
  ⟨⟨[(0, 1)], [], [], [], [(0, false)], [0]⟩, (computeFlows ⟨[(0, 1)], [], [], [], [(0, false)], [0]⟩).get (by decide), by simp,
    by decide⟩

/-- The other kinds are shown. -/
example : ∃ i f, computeFlows i = some f ∧ f.flowPermission (some [(0, 1)]) (some [(0, 1)]) = some .localOutlivesUniversal :=
  ⟨⟨[(0, 1)], [1], [], [], [(0, false)], [0]⟩, (computeFlows ⟨[(0, 1)], [1], [], [], [(0, false)], [0]⟩).get (by decide), by simp,
    by decide⟩

end Verif.Flow
