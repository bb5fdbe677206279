import Verif.Frontend.Stepper
import Verif.Permissions.Props
import Verif.Facts.Props
/-!
# C53, C73, C76: icons, cells and focused rows of the step tables
-/
namespace Verif.Frontend

open Verif.Steps Verif.Permissions

/-! ## C53 -/

/-- The icon a row should have, from the state before and the state after: the first of these changes. -/
def expectedIcon (a b : Data) : Option (Icon × Desc) :=
  if a.pathMoved = none ∧ b.pathMoved ≠ none then some (.signOut, .moved)
  else if a.pathMoved ≠ none ∧ b.pathMoved = none then some (.recycle, .reinitialised)
  else if a.loanReadRefined = none ∧ b.loanReadRefined ≠ none then some (.arrowRight, .borrowed)
  else if a.loanReadRefined ≠ none ∧ b.loanReadRefined = none then some (.rotateLeft, .borrowDropped)
  else if a.loanWriteRefined = none ∧ b.loanWriteRefined ≠ none then some (.arrowRight, .borrowed)
  else if a.loanWriteRefined ≠ none ∧ b.loanWriteRefined = none then some (.rotateLeft, .borrowUnused)
  else if a.isLive = false ∧ b.isLive = true then some (.levelUp, .initialised)
  else if a.isLive = true ∧ b.isLive = false then some (.levelDown, .unused)
  else if a.pathUninitialized = false ∧ b.pathUninitialized = true then some (.signOut, .uninitialised)
  else if a.pathUninitialized = true ∧ b.pathUninitialized = false then some (.recycle, .initialisedAfterMove)
  else none

theorem typeOf_option (x y : Option Nat) : typeOf (diffOption x y) =
    if x = none ∧ y ≠ none then .high else if x ≠ none ∧ y = none then .low else .none := by
  cases x <;> cases y <;> simp [diffOption, typeOf]

theorem typeOf_bool (x y : Bool) : typeOf (diffBool x y) =
    if x = false ∧ y = true then .high else if x = true ∧ y = false then .low else .none := by
  cases x <;> cases y <;> rfl

/-- The icon of the row from state `a` to state `b`. -/
theorem C53_icon (a b : Data) : icon (diffData a b) = expectedIcon a b := by
  simp only [icon, visualFacts, findIcon, findState, factType, diffData, typeOf_option, typeOf_bool, expectedIcon]
  generalize a.pathMoved = m1
  generalize b.pathMoved = m2
  generalize a.loanReadRefined = r1
  generalize b.loanReadRefined = r2
  generalize a.loanWriteRefined = w1
  generalize b.loanWriteRefined = w2
  generalize a.isLive = l1
  generalize b.isLive = l2
  generalize a.pathUninitialized = u1
  generalize b.pathUninitialized = u2
  cases m1 <;> cases m2 <;> simp <;> cases r1 <;> cases r2 <;> simp <;> cases w1 <;> cases w2 <;> simp <;>
    cases l1 <;> cases l2 <;> simp <;> cases u1 <;> cases u2 <;> simp

/-- There is no icon iff none of the five facts changed. -/
theorem C53_none (a b : Data) : icon (diffData a b) = none ↔
    (a.pathMoved.isSome = b.pathMoved.isSome ∧ a.loanReadRefined.isSome = b.loanReadRefined.isSome ∧
      a.loanWriteRefined.isSome = b.loanWriteRefined.isSome ∧ a.isLive = b.isLive ∧
      a.pathUninitialized = b.pathUninitialized) := by
  rw [C53_icon]
  unfold expectedIcon
  generalize a.pathMoved = m1
  generalize b.pathMoved = m2
  generalize a.loanReadRefined = r1
  generalize b.loanReadRefined = r2
  generalize a.loanWriteRefined = w1
  generalize b.loanWriteRefined = w2
  generalize a.isLive = l1
  generalize b.isLive = l2
  generalize a.pathUninitialized = u1
  generalize b.pathUninitialized = u2
  cases m1 <;> cases m2 <;> simp <;> cases r1 <;> cases r2 <;> simp <;> cases w1 <;> cases w2 <;> simp <;>
    cases l1 <;> cases l2 <;> simp <;> cases u1 <;> cases u2 <;> simp

/-- A change of permissions always has an icon that explains it, if a place loses write and drop permission
together to loans and its type does not change. -/
theorem C53_explained (a b : Data)
    (hty : a.typeDroppable = b.typeDroppable ∧ a.typeWriteable = b.typeWriteable)
    (ha : a.loanDropRefined = a.loanWriteRefined) (hb : b.loanDropRefined = b.loanWriteRefined)
    (h : (diffData a b).isEmpty = false) : icon (diffData a b) ≠ none := by
  intro hn
  obtain ⟨h1, h2, h3, h4, h5⟩ := (C53_none a b).1 hn
  have hp : a.permissions = b.permissions := by
    unfold Data.permissions Data.permissionsIgnoreLiveness
    rw [ha, hb, hty.1, hty.2, h1, h4, h5]
    have e1 : a.loanReadRefined.isNone = b.loanReadRefined.isNone := by
      rw [← Option.not_isSome, ← Option.not_isSome, h2]
    have e2 : a.loanWriteRefined.isNone = b.loanWriteRefined.isNone := by
      rw [← Option.not_isSome, ← Option.not_isSome, h3]
    rw [e1, e2]
  have he : (diffData a b).isEmpty = true := by
    simp only [DataDiff.isEmpty, PermsDiff.isEmpty, diffData, diffPerms, hp]
    simp [diffBool, Step.isEmpty]
  rw [he] at h
  cases h

/-- The states that the analysis computes satisfy the hypotheses: between two points every change of the
permissions of a path is explained. -/
theorem C53_analysis (fuel : Nat) (i : Verif.Facts.Input) (o : Verif.Facts.Output)
    (h : Verif.Facts.derive fuel i = some o) (path p q : Nat)
    (hch : (diffData (Verif.Facts.dataAtPoint i o path p) (Verif.Facts.dataAtPoint i o path q)).isEmpty = false) :
    icon (diffData (Verif.Facts.dataAtPoint i o path p) (Verif.Facts.dataAtPoint i o path q)) ≠ none := by
  have hs := (Verif.Facts.derive_spec h).2.2.2.2.2.2.2.1
  exact C53_explained _ _ ⟨rfl, rfl⟩ (hs p path) (hs q path) hch

/-- The opening step of a body starts from the state with nothing; there too every gain has an icon. -/
theorem C53_entry (b : Data) (h : (diffData bottomData b).isEmpty = false) :
    icon (diffData bottomData b) ≠ none := by
  intro hn
  have hl := ((C53_none _ b).1 hn).2.2.2.1
  have hp : b.permissions = bottomData.permissions := by
    unfold Data.permissions
    rw [← hl]
    rfl
  simp only [DataDiff.isEmpty, PermsDiff.isEmpty, diffData, diffPerms, hp] at h
  simp [diffBool, Step.isEmpty] at h

/-- A variable that is moved and whose loan ends in the same step: the move wins. -/
example : icon (diffData
    { typeDroppable := true, typeWriteable := true, typeCopyable := false, isLive := true,
      pathUninitialized := false, pathMoved := none, loanReadRefined := some 1, loanWriteRefined := some 1,
      loanDropRefined := some 1 }
    { typeDroppable := true, typeWriteable := true, typeCopyable := false, isLive := false,
      pathUninitialized := false, pathMoved := some 0, loanReadRefined := none, loanWriteRefined := none,
      loanDropRefined := none }) = some (.signOut, .moved) := by decide

/-- Only the write loan begins. -/
example : icon (diffData
    { typeDroppable := true, typeWriteable := true, typeCopyable := false, isLive := true,
      pathUninitialized := false, pathMoved := none, loanReadRefined := none, loanWriteRefined := none,
      loanDropRefined := none }
    { typeDroppable := true, typeWriteable := true, typeCopyable := false, isLive := true,
      pathUninitialized := false, pathMoved := none, loanReadRefined := none, loanWriteRefined := some 3,
      loanDropRefined := some 3 }) = some (.arrowRight, .borrowed) := by decide

/-! ## C76 -/

/-- What a cell says about the permission before and after the step. -/
def Mark.says : Mark → Bool × Bool
  | .letter => (true, true)
  | .dash => (false, false)
  | .struck => (true, false)
  | .plus => (false, true)

/-- The three cells of a row: letters R, W, O in this order, each saying whether the place had the permission
before and has it after. -/
theorem C76_cells (a b : Data) :
    (cells (diffData a b)).map (fun c => (c.letter, c.mark.says)) =
      [(.R, a.permissions.read, b.permissions.read), (.W, a.permissions.write, b.permissions.write),
       (.O, a.permissions.drop, b.permissions.drop)] := by
  have h : ∀ x y : Bool, (cellMark (diffBool x y)).says = (x, y) := by decide
  simp [cells, diffData, diffPerms, h]

/-- While the mouse is over a cell, the region shown is that of the loan that takes the permission away after the
step, and of the move after the step; none if there is none. -/
theorem C76_hover (a b : Data) :
    (cells (diffData a b)).map (fun c => (c.letter, c.loan, c.move)) =
      [(.R, b.loanReadRefined, b.pathMoved), (.W, b.loanWriteRefined, b.pathMoved),
       (.O, b.loanDropRefined, b.pathMoved)] := by
  have h : ∀ x y : Option Nat, unwrapStep (diffOption x y) = y := by
    intro x y
    cases x <;> cases y <;> rfl
  simp [cells, diffData, h]

/-- If a cell shows a permission as lost or absent, and the place is live, then the type does not allow the
permission, or a region is shown while the mouse is over the cell, or the place is uninitialised, or it is the
loan of the read permission that is responsible and is shown at the first cell. -/
theorem C76_lost_explained (a b : Data) (hl : b.isLive = true) (hu : b.pathUninitialized = false)
    (c : Cell) (hc : c ∈ cells (diffData a b)) (hlost : c.mark.says.2 = false) :
    c.loan ≠ none ∨ c.move ≠ none ∨ (c.letter = .W ∧ b.typeWriteable = false) ∨
      (c.letter = .O ∧ b.typeDroppable = false) ∨
      (c.letter ≠ .R ∧ ∃ r ∈ cells (diffData a b), r.letter = .R ∧ r.loan ≠ none) := by
  have hm := C76_cells a b
  have hh := C76_hover a b
  simp only [cells, List.map_cons, List.map_nil, List.cons.injEq, Prod.mk.injEq, and_true, true_and] at hm hh
  simp only [cells, List.mem_cons, List.not_mem_nil, or_false] at hc
  obtain ⟨m1, m2, m3⟩ := hm
  obtain ⟨⟨h1, h0⟩, ⟨h2, _⟩, h3, _⟩ := hh
  have hperm : b.permissions = b.permissionsIgnoreLiveness := by simp [Data.permissions, hl]
  rw [hperm] at m1 m2 m3
  unfold Data.permissionsIgnoreLiveness at m1 m2 m3
  simp only [hu] at m1 m2 m3
  rcases hc with rfl | rfl | rfl
  · simp only [m1] at hlost
    simp only [h0, h1]
    cases hb : b.pathMoved <;> cases hr : b.loanReadRefined <;> simp_all
  · simp only [m2] at hlost
    simp only [h0, h2]
    by_cases hr : b.loanReadRefined = none
    · cases hb : b.pathMoved <;> cases hw : b.loanWriteRefined <;> simp_all
    · right; right; right; right
      exact ⟨by simp, _, List.mem_cons_self, rfl, by rw [h1]; exact hr⟩
  · simp only [m3] at hlost
    simp only [h0, h3]
    by_cases hr : b.loanReadRefined = none
    · cases hb : b.pathMoved <;> cases hw : b.loanDropRefined <;> simp_all
    · right; right; right; right
      exact ⟨by simp, _, List.mem_cons_self, rfl, by rw [h1]; exact hr⟩

example : (cells (diffData
    { typeDroppable := true, typeWriteable := true, typeCopyable := false, isLive := true,
      pathUninitialized := false, pathMoved := none, loanReadRefined := none, loanWriteRefined := none,
      loanDropRefined := none }
    { typeDroppable := true, typeWriteable := false, typeCopyable := false, isLive := true,
      pathUninitialized := false, pathMoved := none, loanReadRefined := none, loanWriteRefined := some 3,
      loanDropRefined := some 3 })) =
    [⟨.R, .letter, none, none⟩, ⟨.W, .struck, some 3, none⟩, ⟨.O, .struck, some 3, none⟩] := by decide

/-! ## C73 -/

theorem hasSub_iff (lit path : List Char) : hasSub lit path = true ↔ ∃ a b, path = a ++ lit ++ b := by
  induction path with
  | nil =>
    simp only [hasSub, List.isEmpty_iff]
    constructor
    · rintro rfl; exact ⟨[], [], rfl⟩
    · rintro ⟨a, b, h⟩
      simp at h
      exact h.2.1
  | cons c r ih =>
    simp only [hasSub, Bool.or_eq_true, ih, List.isPrefixOf_iff_prefix]
    constructor
    · rintro (⟨t, h⟩ | ⟨a, b, h⟩)
      · exact ⟨[], t, h.symm⟩
      · exact ⟨c :: a, b, by simp [h]⟩
    · rintro ⟨a, b, h⟩
      cases a with
      | nil => exact .inl ⟨b, h.symm⟩
      | cons x a =>
        simp only [List.cons_append, List.cons.injEq] at h
        exact .inr ⟨a, b, h.2⟩

/-- What a matcher selects. -/
def Selects (m : Matcher) (path : List Char) : Prop :=
  match m with
  | .literal v => ∃ a b, path = a ++ v ++ b
  | .regex t => t path = true

/-- No row is lost or invented, the order is kept; a row is behind the dots iff matchers are given for the line
and none of them selects the row's path. -/
theorem C73_rows {α : Type} (ann : Option StepAnn) (line : Nat) (tables : List (List (List Char × α)))
    (i : Nat) (rows : List (List Char × α)) (hi : tables[i]? = some rows) :
    ∃ shown hidden, (stepLine ann line tables).2[i]? = some (shown, hidden) ∧
      shown.Sublist rows ∧ hidden.Sublist rows ∧ (shown ++ hidden).Perm rows ∧
      (∀ r ∈ rows, r ∈ hidden ↔ ∃ a ms, ann = some a ∧ a.focusedPaths line = some ms ∧ ms ≠ [] ∧
        ∀ m ∈ ms, ¬ Selects m r.1) ∧
      (∀ r ∈ rows, r ∈ shown ↔ ¬ ∃ a ms, ann = some a ∧ a.focusedPaths line = some ms ∧ ms ≠ [] ∧
        ∀ m ∈ ms, ¬ Selects m r.1) := by
  have hsel : ∀ (m : Matcher) (p : List Char), m.matches p = true ↔ Selects m p := by
    intro m p
    cases m with
    | literal v => exact hasSub_iff v p
    | regex t => exact Iff.rfl
  have hfoc : ∀ p, focused (matchersOf ann line) p = false ↔
      ∃ a ms, ann = some a ∧ a.focusedPaths line = some ms ∧ ms ≠ [] ∧ ∀ m ∈ ms, ¬ Selects m p := by
    intro p
    cases ann with
    | none => simp [focused, matchersOf]
    | some a =>
      simp only [matchersOf]
      cases hp : a.focusedPaths line with
      | none => simp [focused, hp]
      | some ms =>
        cases ms with
        | nil => simp [focused, hp]
        | cons m t =>
          simp only [focused]
          rw [← Bool.not_eq_true, List.any_eq_true]
          simp only [hsel, not_exists, not_and, Option.some.injEq, ne_eq]
          constructor
          · intro h
            exact ⟨a, m :: t, rfl, hp, by simp, h⟩
          · rintro ⟨a', ms, rfl, h1, _, h2⟩
            rw [hp] at h1
            cases h1
            exact h2
  refine ⟨rows.filter (fun r => focused (matchersOf ann line) r.1),
    rows.filter (fun r => !focused (matchersOf ann line) r.1), ?_, List.filter_sublist, List.filter_sublist, List.filter_append_perm _ _, ?_, ?_⟩
  · simp only [stepLine, List.getElem?_map, hi, Option.map_some, splitRows]
  · intro r hr
    rw [List.mem_filter, ← hfoc]
    simp [hr]
  · intro r hr
    rw [List.mem_filter, ← hfoc, Bool.not_eq_false]
    simp [hr]

/-- A line starts open iff no line is focused or this one is; and it has one entry per table. -/
theorem C73_open {α : Type} (ann : Option StepAnn) (line : Nat) (tables : List (List (List Char × α))) :
    ((stepLine ann line tables).1 = true ↔
      ∀ a, ann = some a → a.focusedLines = [] ∨ line ∈ a.focusedLines) ∧
    (stepLine ann line tables).2.length = tables.length := by
  refine ⟨?_, by simp [stepLine]⟩
  cases ann with
  | none => simp [stepLine]
  | some a =>
    obtain ⟨fl, fp⟩ := a
    cases fl <;> simp [stepLine]

/-- A literal matcher selects also the paths that merely contain it: to focus `a` shows `data` too. -/
theorem C73_substring : ∃ (ann : StepAnn), ann.focusedPaths 1 = some [.literal ['a']] ∧
    (stepLine (some ann) 1 [[(['a'], 0), (['d', 'a', 't', 'a'], 1), (['x'], 2)]]).2 =
      [([(['a'], 0), (['d', 'a', 't', 'a'], 1)], [(['x'], 2)])] :=
  ⟨⟨[], fun _ => some [.literal ['a']]⟩, rfl, by decide⟩

example : (stepLine (some ⟨[2], fun n => if n = 1 then some [.literal ['x']] else none⟩) 1
    [[(['a'], 0), (['x'], 2)]]) = (false, [([(['x'], 2)], [(['a'], 0)])]) := by decide

end Verif.Frontend
