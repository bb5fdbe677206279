import Verif.Facts.Parts
import Verif.Boundaries.CheckedExamples
/-!
# C130: uses of values that are not there

The borrow checker rejects the use of a place that has been moved or was never initialised (E0381, E0382).  Its check is
stated here from memory of `rustc_borrowck` (`check_if_path_or_subpath_is_moved`): it looks at the smallest move path that
the place is a part of, and, if the place is a move path itself, at all parts of it.
-/
namespace Verif.Boundaries

open Verif.Permissions (Perms Place)
open Verif.Cfg (Loc)
open Verif.Facts.Spec

/-- `m` is the smallest move path that `path` is a part of. -/
structure Closest (Part : Nat → Nat → Prop) (known : Nat → Prop) (path m : Nat) : Prop where
  isKnown : known m
  whole : Part path m
  least : ∀ m', known m' → Part path m' → Part m m'

/-- The borrow checker finds, at the point, that the value of the path may not be there, or not all of it. -/
inductive Absent (i : Facts.Input) (Part : Nat → Nat → Prop) (known : Nat → Prop) (entry : Nat) (fresh : Nat → Prop)
    (path point : Nat) : Prop
  /-- `check_if_full_path_is_moved` -/
  | full {m : Nat} : Closest Part known path m → Missing i Part entry fresh m point →
      Absent i Part known entry fresh path point
  /-- `has_any_child_of` -/
  | child {d : Nat} : known path → known d → Part d path → Missing i Part entry fresh d point →
      Absent i Part known entry fresh path point

/-- The move paths of a body: each place is a part of a smallest one, and what they are parts of are move paths. -/
structure Rooted (Part : Nat → Nat → Prop) (known : Nat → Prop) : Prop where
  closest : ∀ path, ∃ m, Closest Part known path m
  up : ∀ a b, known a → Part a b → known b

section

variable {w : Whole} {i : Flow.Input} {use : Use} {ctx id : Nat} {l : Loc} {p : Place}
  {icons : List (Frontend.Letter × Bool)} {Part : Nat → Nat → Prop} {known fresh : Nat → Prop} {entry k : Nat}

/-- **C130 (the checker).** The borrow checker's check of a few move paths finds out whether any part of the place, at any
depth, may be without a value. -/
theorem C130_checker {i : Facts.Input} (h : Ruled i Part known entry fresh) (hr : Rooted Part known) (path point : Nat) :
    Absent i Part known entry fresh path point ↔ ∃ d, Part d path ∧ Missing i Part entry fresh d point := by
  constructor
  · rintro (⟨hm, hx⟩ | ⟨_, _, h3, h4⟩)
    · -- what is assigned around the path is assigned around its smallest move path
      rename_i m
      have hg : ∀ q point, Since i Part m q point → Since i Part path q point := by
        rintro _ _ ⟨b, hw, hn⟩
        exact ⟨b, hw, fun x hx ⟨e, g1, g2⟩ => hn x hx ⟨e, hm.least e (h.tree.assigned e x g2) g1, g2⟩⟩
      refine ⟨path, h.tree.refl _, ?_⟩
      rcases hx with ⟨q, ⟨mv, path₀, s, e1, e2, e3⟩, hs⟩ | ⟨⟨r, hr1, hr2⟩, hs⟩
      · exact .inl ⟨q, ⟨mv, path₀, s, e1, h.tree.trans hm.whole e2, e3⟩, hg _ _ hs⟩
      · exact .inr ⟨⟨r, hr1, h.tree.trans hm.whole hr2⟩, hg _ _ hs⟩
    · exact ⟨_, h3, h4⟩
  · rintro ⟨d, hd, hm⟩
    obtain ⟨m, hc⟩ := hr.closest path
    have hdm := h.tree.trans hd hc.whole
    rcases hm with ⟨q, ⟨mv, path₀, s, e1, e2, e3⟩, hs⟩ | ⟨⟨r, h1, h2⟩, hs⟩
    · rcases h.tree.line hd e2 with h3 | h3
      · exact .full hc (.inl ⟨q, ⟨mv, path₀, s, e1, hc.least _ (h.tree.moved mv path₀ _ e1) h3, e3⟩,
          Facts.since_of_part h.tree hdm hs⟩)
      · exact .child (hr.up _ _ (h.tree.moved mv path₀ _ e1) h3) (h.tree.moved mv path₀ _ e1) h3
          (.inl ⟨q, ⟨mv, path₀, s, e1, h.tree.refl _, e3⟩, Facts.since_of_part h.tree e2 hs⟩)
    · obtain ⟨h3, h4⟩ := h.fresh r h1
      have h5 : Part path r := by
        rcases h.tree.line hd h2 with h5 | h5
        · exact h5
        · rw [h4 path h5]
          exact h.tree.refl _
      exact .full hc (.inr ⟨⟨r, h1, hc.least r h3 h5⟩, Facts.since_of_part h.tree hdm hs⟩)

/-- A place that is mutably lent at the point. -/
def LentMut (w : Whole) (point : Nat) (p : Place) : Prop :=
  ∃ loan, LiveOverlap w.facts loan (w.path p) point ∧ w.facts.isMutLoan loan = true

/-- **C130 (move paths).** At the use of a place that is a move path the letter R is missing exactly if the borrow checker
finds that its value may not be there, or it is mutably lent. -/
theorem C130_known_partial (h : Ruled w.facts Part known entry fresh) (hr : Rooted Part known) (hs : w.start l = 2 * k)
    (hk : known (w.path p)) (ht : Tells w i use ctx id (w.start l) p icons) :
    (Frontend.Letter.R, true) ∈ icons ↔
      Absent w.facts Part known entry fresh (w.path p) (w.start l) ∨ LentMut w (w.start l) p := by
  rw [ht.read, C130_checker h hr]
  simp only [true_iff]
  unfold CannotRead LentMut
  rw [Facts.C129_uninit h hk]
  constructor
  · rintro (hm | hm | hm)
    · rw [hs] at hm ⊢
      obtain ⟨d, h1, h2⟩ := Facts.C129_true h hm
      exact .inl ⟨d, h1, .inl h2⟩
    · exact .inl hm
    · exact .inr hm
  · rintro (hm | hm)
    · exact .inr (.inl hm)
    · exact .inr (.inr hm)

/-- **C130 (other places).** At the use of a place that is no move path the letter R is missing exactly if the place or a part
of it may have been moved and not given back, or it is mutably lent.  That it was never initialised plays no role. -/
theorem C130_unknown (h : Ruled w.facts Part known entry fresh) (hr : Rooted Part known) (hc : Careful w.facts Part)
    (hw : Fits w i) (hs : w.start l = 2 * k) (hk : ¬ known (w.path p))
    (ht : Tells w i use ctx id (w.start l) p icons) :
    (Frontend.Letter.R, true) ∈ icons ↔
      (∃ d, Part d (w.path p) ∧ Gone w.facts Part d (w.start l)) ∨ LentMut w (w.start l) p := by
  rw [ht.read]
  simp only [true_iff]
  unfold CannotRead LentMut
  obtain ⟨fuel, ho⟩ := hw.derived
  have hM := Facts.C129_moved h hc (path := w.path p) (k := k) ho
  rw [← hs] at hM
  have hM' : (∃ mv, Touches w.facts mv (w.path p) ∧ Reaches w.facts mv (w.start l)) ↔
      ∃ d, Part d (w.path p) ∧ Gone w.facts Part d (w.start l) :=
    (Facts.C23_moved fuel w.facts w.out ho (w.path p) (w.start l)).symm.trans hM
  have hU : ¬ MaybeUninit w.facts (w.path p) (w.start l) := by
    rintro ⟨pred, d, _, h2, h3⟩
    obtain ⟨h4, _⟩ := (h.uninit _ _).1 h2
    exact hk (hr.up _ _ h4 ((h.tree.child d h4 _).1 h3).1)
  rw [hM']
  constructor
  · rintro (a | a | a)
    · exact .inl a
    · exact absurd a hU
    · exact .inr a
  · rintro (a | a)
    · exact .inl a
    · exact .inr (.inr a)

/-- **C130 (rejected programs).** If the borrow checker rejects a use written in the source because the value of a move path
may not be there, at the place and location found for it and not after the first error, a boundary is reported at its
end with the letter R missing. -/
theorem C130_rejected_partial (h : Ruled w.facts Part known entry fresh) (hr : Rooted Part known) (hw : Fits w i)
    (pos : Nat → Frontend.Pos) {node : Expr} {lhs : Bool} {sp : Span} {x : Perms}
    (h1 : UseIn w.src w.root.node.id w.root node lhs use ctx sp) (h2 : Requires use x)
    (hf : w.find ⟨node, lhs, x⟩ = some (w.start l, p)) (hs : w.start l = 2 * k)
    (he : ∀ e, w.firstError = some e → ((w.asLocal sp).getD sp).hi ≤ e) (hk : known (w.path p))
    (ha : Absent w.facts Part known entry fresh (w.path p) (w.start l)) :
    ∃ b ∈ w.boundaries, b.location = ((w.asLocal sp).getD sp).hi ∧
      (Frontend.Letter.R, true) ∈ Frontend.bndIcons (b.sent pos) := by
  obtain ⟨b, h3, h4, h5⟩ := C98_reported hw pos h1 h2 hf fun e h => .inl (he e h)
  exact ⟨b, h3, h4, (C130_known_partial h hr hs hk h5).2 (.inl ha)⟩

end

/-! ## The part of a variable that was never initialised -/

/-- `let x: (i32, i32); x.0`: `x` is path 0, `x.0` path 1.  The latter is only copied and no move path. -/
def blankFacts : Facts.Input :=
  { cfgEdge := [(0, 1), (1, 2), (2, 3), (3, 4), (4, 5)]
    uninitExit := [(0, 0), (1, 0), (2, 0), (3, 0), (4, 0), (5, 0)]
    childPath := [], moves := []
    interior := fun p => if p == 0 then [0, 1] else [p], parents := fun _ => [], assigned := []
    conflict := fun a b => a == b || (a == 0 && b == 1) || (a == 1 && b == 0)
    issued := [], borrowed := fun _ => 0, isMutLoan := fun _ => false, loanLive := []
    paths := [0, 1], varLive := [(0, 0), (1, 0), (2, 0), (3, 0)], varOf := fun _ => 0
    writeEnabled := fun _ => true, dropEnabled := fun _ => true, copyable := fun _ => true }

namespace Blank

def Part (a b : Nat) : Prop := a = b ∨ (a = 1 ∧ b = 0)
/-- only variables are move paths -/
def known (a : Nat) : Prop := a ≠ 1
def fresh (r : Nat) : Prop := r = 0

theorem ancestor {a b : Nat} : Ancestor blankFacts a b ↔ a = b := by
  constructor
  · intro h
    induction h with
    | self => rfl
    | up _ hc => cases hc
  · rintro rfl
    exact .self

theorem uninit {p d : Nat} : (p, d) ∈ blankFacts.uninitExit ↔ d = 0 ∧ p ≤ 5 := by
  simp only [blankFacts, List.mem_cons, Prod.mk.injEq, List.not_mem_nil, or_false]
  omega

theorem edge {p q : Nat} : (p, q) ∈ blankFacts.cfgEdge ↔ q = p + 1 ∧ p ≤ 4 := by
  simp only [blankFacts, List.mem_cons, Prod.mk.injEq, List.not_mem_nil, or_false]
  omega

theorem tree : Tree blankFacts Part known where
  refl _ := .inl rfl
  trans := by
    intro a b c h1 h2
    unfold Part at *
    omega
  line := by
    intro d a b h1 h2
    unfold Part at *
    omega
  child := by
    intro a ha b
    rw [ancestor]
    unfold Part known at *
    omega
  moved := nofun
  assigned := nofun
  touch := nofun
  conflict := by
    intro a b ha hb
    simp [blankFacts, Part]
    omega
  lent := by
    intro l d path h1 h2
    simp [blankFacts, Part] at *
    omega
  var _ _ _ := rfl

theorem leftEmpty {d p : Nat} (hd : known d) : LeftEmpty blankFacts 0 fresh d p ↔ d = 0 ∧ p ≤ 5 := by
  constructor
  · intro h
    induction h with
    | move hm _ => cases hm
    | start hr ha =>
      obtain rfl := ancestor.1 ha
      exact ⟨hr, by omega⟩
    | keep _ he _ ih =>
      have := edge.1 he
      omega
  · rintro ⟨rfl, hp⟩
    induction p with
    | zero => exact .start (r := 0) rfl .self
    | succ p ih => exact .keep (ih (by omega)) (edge.2 (by omega)) nofun

theorem ruled : Ruled blankFacts Part known 0 fresh where
  tree := tree
  start k q h := (edge.1 h).1
  source := nofun
  uninit p d := by
    rw [uninit]
    constructor
    · rintro h
      have hk : known d := by unfold known; omega
      exact ⟨hk, (leftEmpty hk).2 h⟩
    · rintro ⟨hk, h⟩
      exact (leftEmpty hk).1 h
  fresh := by
    rintro r rfl
    refine ⟨by unfold known; omega, ?_⟩
    intro a h
    unfold Part at h
    omega

theorem rooted : Rooted Part known where
  closest path := by
    by_cases h : path = 1
    · subst h
      refine ⟨0, by unfold known; omega, .inr ⟨rfl, rfl⟩, ?_⟩
      intro m h1 h2
      unfold Part known at *
      omega
    · exact ⟨path, h, .inl rfl, fun _ _ h2 => h2⟩
  up := by
    intro a b h1 h2
    unfold Part known at *
    omega

theorem missing : Missing blankFacts Part 0 fresh 0 2 :=
  .inr ⟨⟨0, rfl, .inl rfl⟩, [1], ⟨by decide, by decide, trivial⟩, by
    rintro q _ ⟨e, _, h⟩
    cases h⟩

end Blank

/-- `let x: (i32, i32); &x`: the borrow checker rejects the use of the whole, and R is missing in its stack. -/
example : ∃ b ∈ (oneUse (.addrOf ⟨4, none, false, false⟩ false (.var ⟨6, none, false, false⟩))
      (.assign ⟨3, []⟩ [⟨1, []⟩]) 0 blankFacts).boundaries, b.location = 60 ∧
    (Frontend.Letter.R, true) ∈ Frontend.bndIcons (b.sent fun n => ⟨0, n⟩) :=
  C130_rejected_partial (i := noFlows) (l := ⟨0, 1⟩) (p := ⟨1, []⟩) (k := 1) (sp := ⟨60, 60⟩) (lhs := false)
    (x := ⟨true, false, false⟩) Blank.ruled Blank.rooted
    (oneUse_fits (by decide +kernel)) _ (.borrow (.inr ⟨rfl, rfl⟩) trivial rfl) C29_expected.2.1 (by decide +kernel) rfl
    nofun (by show (0 : Nat) ≠ 1; omega)
    (.full (m := 0) ⟨by unfold Blank.known; omega, .inl rfl, fun _ _ h => h⟩ Blank.missing)

example : Careful blankFacts Blank.Part := ⟨nofun, nofun⟩

/-- The place `x.0`. -/
def part0 : Place := ⟨1, [.field 0 (.other 0)]⟩

/-- **Disagreement.** `let x: (i32, i32); &x.0`: the borrow checker rejects the use of the part, but no letter is missing in
its stack, since rustc keeps no facts about a part that is neither moved nor assigned. -/
theorem C130_part_of_blank : ∃ w : Whole, Fits w noFlows ∧ Ruled w.facts Blank.Part Blank.known 0 Blank.fresh ∧
    Rooted Blank.Part Blank.known ∧
    (∃ node lhs ctx sp x, UseIn w.src w.root.node.id w.root node lhs .sharedBorrow ctx sp ∧ Requires .sharedBorrow x ∧
      w.find ⟨node, lhs, x⟩ = some (w.start ⟨0, 1⟩, part0)) ∧
    Absent w.facts Blank.Part Blank.known 0 Blank.fresh (w.path part0) (w.start ⟨0, 1⟩) ∧
    ∃ b, w.boundaries = [b] ∧ b.isViolation = false := by
  refine ⟨oneUse (.addrOf ⟨4, none, false, false⟩ false (.field ⟨5, none, false, false⟩ (.var ⟨6, none, false, false⟩)))
      (.assign ⟨3, []⟩ [part0]) 1 blankFacts, oneUse_fits (by decide +kernel), Blank.ruled, Blank.rooted, ?_, ?_, ?_⟩
  · exact ⟨_, false, _, _, ⟨true, false, false⟩, .borrow (.inr ⟨rfl, rfl⟩) trivial rfl, C29_expected.2.1,
      by decide +kernel⟩
  · refine .full (m := 0) ⟨by unfold Blank.known; omega, .inr ⟨rfl, rfl⟩, ?_⟩ Blank.missing
    intro m h1 h2
    have h2 : Blank.Part 1 m := h2
    unfold Blank.Part Blank.known at *
    omega
  · exact ⟨⟨50, 50, ⟨true, false, false⟩, ⟨true, true, true⟩, none⟩, by decide +kernel, by decide⟩

end Verif.Boundaries
