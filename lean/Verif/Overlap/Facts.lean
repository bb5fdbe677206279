import Verif.Overlap.Props
import Verif.Facts.Props
/-!
# C113: loans restrict, and assignments restore, what shares memory with them
-/
namespace Verif.Overlap
open Spec Facts.Spec

variable {T : Type}

/-- The paths of the facts stand for places, compared by `places_conflict` (`permissions/output.rs:322-328, 393-399`) without
panic. -/
def Grounded (D : Decls T) (place : Nat → Place) (i : Facts.Input) : Prop :=
  ∀ a b, (a ∈ i.issued.map i.borrowed ∧ b ∈ i.paths) ∨ (a ∈ i.assigned.map Prod.fst ∧ b ∈ i.moves.map Prod.fst) →
    placesConflict D (place a) (place b) = some (i.conflict a b)

/-- The places of the paths are places of a program: well typed, with something to select; those that are borrowed or
assigned are not behind shared references. -/
structure Sane (D : Decls T) (place : Nat → Place) (i : Facts.Input) : Prop where
  typed : ∀ a, TypedPlace D (place a)
  filled : ∀ a, FilledPlace D (place a)
  borrowed : ∀ l ∈ i.issued, TrackedPlace D (place (i.borrowed l))
  assigned : ∀ a ∈ i.assigned, TrackedPlace D (place a.1)

theorem conflict_shares {D : Decls T} {place : Nat → Place} {i : Facts.Input} (hg : Grounded D place i) (hs : Sane D place i)
    {a b : Nat} (ht : TrackedPlace D (place a))
    (hab : (a ∈ i.issued.map i.borrowed ∧ b ∈ i.paths) ∨ (a ∈ i.assigned.map Prod.fst ∧ b ∈ i.moves.map Prod.fst)) :
    i.conflict a b = true ↔ Shares D (place a) (place b) := by
  rw [← C113_shares_memory_partial (hs.typed a) (hs.typed b) ht (hs.filled a) (hs.filled b), hg a b hab]
  simp

/-- **C113 (loans).** At a point a place loses write and own exactly if a live loan is of memory that it shares, and read
exactly if such a loan is mutable. -/
theorem C113_loans_partial {D : Decls T} {place : Nat → Place} {i : Facts.Input} (hg : Grounded D place i) (hs : Sane D place i)
    {fuel : Nat} {o : Facts.Output} (h : Facts.derive fuel i = some o) {path : Nat} (hp : path ∈ i.paths) (point : Nat) :
    ((o.loanReadRefined point path).isSome = true ↔
      ∃ l ∈ i.issued, (l, point) ∈ i.loanLive ∧ Shares D (place (i.borrowed l)) (place path) ∧ i.isMutLoan l = true) ∧
    ((o.loanWriteRefined point path).isSome = true ↔
      ∃ l ∈ i.issued, (l, point) ∈ i.loanLive ∧ Shares D (place (i.borrowed l)) (place path)) ∧
    ((o.loanDropRefined point path).isSome = true ↔
      ∃ l ∈ i.issued, (l, point) ∈ i.loanLive ∧ Shares D (place (i.borrowed l)) (place path)) := by
  have key : ∀ l ∈ i.issued, (i.conflict (i.borrowed l) path = true ↔ Shares D (place (i.borrowed l)) (place path)) :=
    fun l hl => conflict_shares hg hs (hs.borrowed l hl) (.inl ⟨List.mem_map.2 ⟨l, hl, rfl⟩, hp⟩)
  have hany : (∃ l, LiveOverlap i l path point) ↔
      ∃ l ∈ i.issued, (l, point) ∈ i.loanLive ∧ Shares D (place (i.borrowed l)) (place path) :=
    ⟨fun ⟨l, h1, h2, h3, h4⟩ => ⟨l, h1, h2, (key l h1).1 h4⟩, fun ⟨l, h1, h2, h3⟩ => ⟨l, h1, h2, hp, (key l h1).2 h3⟩⟩
  obtain ⟨h1, h2, h3⟩ := Facts.C25_refined fuel i o h path point
  refine ⟨?_, h2.trans hany, h3.trans hany⟩
  rw [h1]
  exact ⟨fun ⟨l, ⟨h1, h2, h3, h4⟩, h5⟩ => ⟨l, h1, h2, (key l h1).1 h4, h5⟩,
    fun ⟨l, h1, h2, h3, h4⟩ => ⟨l, ⟨h1, h2, hp, (key l h1).2 h3⟩, h4⟩⟩

/-- **C113 (moves).** A move ceases to be in force only where memory is assigned that is shared with the moved place. -/
theorem C113_moves_partial {D : Decls T} {place : Nat → Place} {i : Facts.Input} (hg : Grounded D place i) (hs : Sane D place i)
    {fuel : Nat} {o : Facts.Output} (h : Facts.derive fuel i = some o) {mv path source : Nat}
    (hm : i.moves[mv]? = some (path, source)) (point : Nat) :
    mv ∈ o.moveLiveAt point ↔ ∃ between, Walk i.cfgEdge (source :: (between ++ [point])) ∧
      ∀ q ∈ between, ∀ a ∈ i.assigned, a.2 = q → ¬ Shares D (place a.1) (place path) := by
  rw [(Facts.C23_live fuel i o h point).1 mv]
  have hpath : path ∈ i.moves.map Prod.fst := List.mem_map.2 ⟨_, List.mem_of_getElem? hm, rfl⟩
  have key : ∀ a ∈ i.assigned, (i.conflict a.1 path = true ↔ Shares D (place a.1) (place path)) :=
    fun a ha => conflict_shares hg hs (hs.assigned a ha) (.inr ⟨List.mem_map.2 ⟨a, ha, rfl⟩, hpath⟩)
  constructor
  · rintro ⟨path', source', between, h1, h2, h3⟩
    rw [hm] at h1
    obtain ⟨rfl, rfl⟩ : path = path' ∧ source = source' := by simpa using h1
    refine ⟨between, h2, fun q hq a ha hp hsh => h3 q hq ⟨a.1, ?_, (key a ha).2 hsh⟩⟩
    rw [← hp]; exact ha
  · rintro ⟨between, h2, h3⟩
    refine ⟨path, source, between, hm, h2, ?_⟩
    rintro q hq ⟨a, ha, hc⟩
    exact h3 q hq (a, q) ha rfl ((key _ ha).1 hc)

/-- `let t = s; s.a = x;`: paths 0, 1, 2 are `s`, `s.a`, `s.b`; points 0 to 3 in a row. -/
def reinit : Facts.Input where
  cfgEdge := [(0, 1), (1, 2), (2, 3)]
  uninitExit := []
  childPath := []
  moves := [(0, 0)]
  interior := fun p => if p = 0 then [0, 1, 2] else [p]
  parents := fun _ => []
  assigned := [(1, 1)]
  conflict := fun a b => a == b || a == 0 || b == 0
  issued := []
  borrowed := id
  isMutLoan := fun _ => false
  loanLive := []
  paths := [0, 1, 2]
  varLive := []
  varOf := fun _ => 1
  writeEnabled := fun _ => true
  dropEnabled := fun _ => true
  copyable := fun _ => false

/-- The places of the example. -/
def reinitPlace : Nat → Place
  | 0 => ⟨1, []⟩
  | 1 => ⟨1, [.field 0]⟩
  | _ => ⟨1, [.field 1]⟩

theorem reinit_grounded : Grounded sampleDecls reinitPlace reinit := by
  rintro a b (⟨h, -⟩ | ⟨h1, h2⟩)
  · simp [reinit] at h
  · simp only [reinit, List.map_cons, List.map_nil, List.mem_singleton] at h1 h2
    subst h1; subst h2
    rfl

theorem reinit_sane : Sane sampleDecls reinitPlace reinit where
  typed := by
    intro a
    have hf : ∀ i, Typed sample 1 [.field i] := fun i => .field (f := fun i => if i = 0 then 2 else 0) rfl .nil
    match a with
    | 0 => exact .nil
    | 1 => exact hf 0
    | _ + 2 => exact hf 1
  filled := by
    intro a
    match a with
    | 0 => trivial
    | 1 => exact ⟨trivial, trivial⟩
    | _ + 2 => exact ⟨trivial, trivial⟩
  borrowed := by intro l hl; simp [reinit] at hl
  assigned := by
    intro a ha
    simp only [reinit, List.mem_singleton] at ha
    subst ha
    exact ⟨by simp, trivial⟩

/-- **C113 (negation: parts of what is moved).** Once a field of a moved struct is assigned, the move is no longer
in force for the other fields either. -/
theorem C113_reinit_part : ∃ (D : Decls Nat) (place : Nat → Place) (i : Facts.Input) (o : Facts.Output),
    Grounded D place i ∧ Sane D place i ∧ Facts.derive 10 i = some o ∧
    (∃ mv, (o.moveRefined 1 2 = some mv ∧ Touches i mv 2) ∧ o.moveRefined 3 2 = none ∧
      ∀ a ∈ i.assigned, ¬ Shares D (place a.1) (place 2)) := by
  refine ⟨sampleDecls, reinitPlace, reinit, (Facts.derive 10 reinit).get (by decide), reinit_grounded, reinit_sane, by simp, 0,
    ⟨by decide, 0, 0, rfl, .inl (by decide)⟩, by decide, ?_⟩
  intro a ha
  have hs := reinit_sane
  rw [← C113_shares_memory_partial (hs.typed _) (hs.typed _) (hs.assigned a ha) (hs.filled _) (hs.filled _)]
  simp only [reinit, List.mem_singleton] at ha
  subst ha
  decide

/-- A loan of `s.a` that is live at point 2 restricts `s` and `s.a`, but not `s.b`. -/
def lendPart : Facts.Input := { reinit with moves := [], assigned := [], issued := [7], borrowed := fun _ => 1, loanLive := [(7, 2)] }

theorem lendPart_ok : Grounded sampleDecls reinitPlace lendPart ∧ Sane sampleDecls reinitPlace lendPart := by
  constructor
  · rintro a b (⟨h1, h2⟩ | ⟨h, -⟩)
    · simp only [lendPart, reinit, List.map_cons, List.map_nil, List.mem_singleton, List.mem_cons, List.not_mem_nil, or_false] at h1 h2
      subst h1
      rcases h2 with rfl | rfl | rfl <;> rfl
    · simp [lendPart] at h
  · refine ⟨reinit_sane.typed, reinit_sane.filled, ?_, ?_⟩
    · intro l _; exact ⟨by simp, trivial⟩
    · intro a ha; simp [lendPart] at ha

example : ∃ o, Facts.derive 10 lendPart = some o ∧ (o.loanWriteRefined 2 0).isSome = true ∧ (o.loanWriteRefined 2 1).isSome = true ∧
    o.loanWriteRefined 2 2 = none :=
  ⟨(Facts.derive 10 lendPart).get (by decide), by simp, by decide, by decide, by decide⟩

end Verif.Overlap
