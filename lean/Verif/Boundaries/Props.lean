import Verif.Boundaries.Spec
/-!
# Properties of permission boundaries
-/
namespace Verif.Boundaries

open Verif.Permissions (Perms Place)

/-! ## C29 -/

/-- The table of expectations is what the language requires of each kind of use. -/
theorem C29_expected :
    Requires .assign fromAssignment ∧ Requires .sharedBorrow (fromBorrow false) ∧
    Requires .mutBorrow (fromBorrow true) ∧ Requires .sharedBorrow (fromReborrow false) ∧
    Requires .mutBorrow (fromReborrow true) ∧ Requires .move fromMove ∧ Requires .copy fromCopy ∧
    Requires .inspect fromDiscriminant := by
  simp [Requires, Use.needsRead, Use.needsWrite, Use.needsOwn, fromAssignment, fromBorrow, fromReborrow,
    fromMove, fromCopy, fromDiscriminant]

theorem syntactic_iff {e : Expr} : e.isSyntacticPlace = true ↔ PlaceForm e := by
  unfold Expr.isSyntacticPlace
  cases e <;> simp [Expr.isPlace, PlaceForm]

theorem noLit_iff {e : Expr} : e.isPlaceNoLit = true ↔ PlaceForm e ∧ ¬ OfLiteral e := by
  unfold Expr.isPlaceNoLit
  cases e with
  | field n b => cases b <;> simp [Expr.isPlace, PlaceForm, OfLiteral, Expr.isLit]
  | index n b i => cases b <;> simp [Expr.isPlace, PlaceForm, OfLiteral, Expr.isLit]
  | _ => simp [Expr.isPlace, PlaceForm, OfLiteral]

theorem requires_adjusted (n : Node) : Requires n.Use (adjusted n) := by
  obtain ⟨h1, h2, h3, h4, h5, h6, h7, h8⟩ := C29_expected
  unfold Node.Use adjusted
  split
  · rename_i h; rw [h]; exact h5
  · rename_i h; rw [h]; exact h4
  · rename_i h; rw [h]; dsimp only
    split
    · exact h7
    · exact h6

/-- Which use a source expression makes of which place, and that the boundary recorded for it expects
exactly what that use requires: borrowing, assigning through a dereference, compound assignment, matching,
method receivers, dereferencing and plain variables. -/
theorem C29_uses :
    (∀ n m e, PlaceForm e → e.node.expansion = false →
      ∃ b, visit (.addrOf n m e) = [b] ∧ b.node = .addrOf n m e ∧ b.isLhs = false ∧
        Requires (if m then .mutBorrow else .sharedBorrow) b.expected) ∧
    (∀ n n' l r, ∃ b, visit (.assign n (.deref n' l) r) = b :: visit r ∧ b.node = .deref n' l ∧ b.isLhs = true ∧
      Requires .assign b.expected) ∧
    (∀ n l r, ∃ b, visit (.assignOp n l r) = b :: visit r ∧ b.node = l ∧ b.isLhs = true ∧
      Requires .assign b.expected) ∧
    (∀ n d arms, PlaceForm d → ¬ OfLiteral d →
      ∃ b, visit (.match_ n d arms) = b :: visitAll arms ∧ b.node = d ∧ b.isLhs = false ∧
        Requires .inspect b.expected) ∧
    (∀ n rcvr args, PlaceForm rcvr → ¬ OfLiteral rcvr →
      ∃ b, visit (.methodCall n false rcvr args) = b :: visitAll args ∧ b.node = rcvr ∧ b.isLhs = false ∧
        Requires rcvr.node.Use b.expected) ∧
    (∀ n e, PlaceForm e → e.node.expansion = false →
      ∃ b, visit (.deref n e) = [b] ∧ b.node = .deref n e ∧ b.isLhs = false ∧ Requires n.Use b.expected) ∧
    (∀ n : Node, n.expansion = false →
      ∃ b, visit (.var n) = [b] ∧ b.node = .var n ∧ b.isLhs = false ∧ Requires n.Use b.expected) := by
  obtain ⟨h1, h2, h3, h4, h5, h6, h7, h8⟩ := C29_expected
  refine ⟨?_, ?_, ?_, ?_, ?_, ?_, ?_⟩
  · intro n m e hp hx
    refine ⟨⟨.addrOf n m e, false, fromBorrow m⟩, by simp [visit, syntactic_iff.2 hp, hx], rfl, rfl, ?_⟩
    cases m
    · exact h2
    · exact h3
  · intro n n' l r
    exact ⟨⟨.deref n' l, true, fromAssignment⟩, by simp [visit, Expr.isDeref], rfl, rfl, h1⟩
  · intro n l r
    exact ⟨⟨l, true, fromAssignment⟩, by simp [visit], rfl, rfl, h1⟩
  · intro n d arms hd hl
    exact ⟨⟨d, false, fromDiscriminant⟩, by simp [visit, noLit_iff.2 ⟨hd, hl⟩], rfl, rfl, h8⟩
  · intro n rcvr args hr hl
    exact ⟨⟨rcvr, false, adjusted rcvr.node⟩, by simp [visit, noLit_iff.2 ⟨hr, hl⟩], rfl, rfl, requires_adjusted _⟩
  · intro n e hp hx
    exact ⟨⟨.deref n e, false, adjusted n⟩, by simp [visit, syntactic_iff.2 hp, hx], rfl, rfl, requires_adjusted _⟩
  · intro n hx
    exact ⟨⟨.var n, false, adjusted n⟩, by simp [visit, hx], rfl, rfl, requires_adjusted _⟩

/-- `&mut x` and `x.push(y)`: two boundaries, one expecting writing and one a move. -/
example :
    ((visit (.methodCall ⟨0, none, false, false⟩ false (.var ⟨1, some true, false, false⟩)
      [.var ⟨2, none, false, false⟩])).map (·.expected)) = [⟨true, true, false⟩, ⟨true, false, true⟩] := by
  decide

/-- Whatever the boundary, an icon is drawn as missing iff something the operation needs is missing: an
expected permission that the place does not have, or a flow that is not allowed. -/
theorem C29_display (b : Boundary) : (∃ i ∈ icons b, i.missing = true) ↔ SomethingMissing b := by
  obtain ⟨_, _, ⟨er, ew, ed⟩, ⟨ar, aw, ad⟩, fl⟩ := b
  unfold SomethingMissing icons Icon.missing
  simp only [List.mem_filter, List.mem_cons, List.not_mem_nil, or_false]
  constructor
  · rintro ⟨i, ⟨hi | hi | hi | hi, hexp⟩, hm⟩ <;> subst hi <;> simp_all
    cases fl <;> simp_all
  · rintro (⟨h1, h2⟩ | ⟨h1, h2⟩ | ⟨h1, h2⟩ | h1)
    · exact ⟨⟨.read, er, ar⟩, by simp_all⟩
    · exact ⟨⟨.write, ew, aw⟩, by simp_all⟩
    · exact ⟨⟨.own, ed, ad⟩, by simp_all⟩
    · exact ⟨⟨.flow, true, false⟩, by simp_all⟩

/-- The icons are one per expected permission, and the size class of the stack is their number. -/
theorem C29_icons (b : Boundary) :
    (icons b).length = numDisplayed b ∧
    (∀ l, (∃ i ∈ icons b, i.letter = l) ↔
      match l with
      | .read => b.expected.read = true
      | .write => b.expected.write = true
      | .own => b.expected.drop = true
      | .flow => b.flow ≠ none) ∧
    ((icons b).map (·.letter)).Sublist [.read, .write, .own, .flow] := by
  obtain ⟨_, _, ⟨er, ew, ed⟩, ⟨ar, aw, ad⟩, fl⟩ := b
  refine ⟨?_, ?_, ?_⟩
  · cases er <;> cases ew <;> cases ed <;> cases fl <;> rfl
  · intro l
    cases l <;> cases er <;> cases ew <;> cases ed <;> cases fl <;> simp [icons]
  · unfold icons
    exact (List.filter_sublist.map _)

/-- The analysis' own notion of violation: one of the three permissions is missing. -/
theorem C29_violation (b : Boundary) : b.isViolation = true ↔
    (b.expected.read = true ∧ b.actual.read = false) ∨ (b.expected.write = true ∧ b.actual.write = false) ∨
    (b.expected.drop = true ∧ b.actual.drop = false) := by
  simp [Boundary.isViolation, or_assoc]

/-- It does not include the flow: a boundary with a disallowed flow is not a violation for the analysis
although it is displayed as one. -/
theorem C29_flow_not_counted : ∃ b : Boundary, SomethingMissing b ∧ b.isViolation = false :=
  ⟨⟨0, 0, ⟨true, false, false⟩, ⟨true, true, true⟩, some true⟩, by simp [SomethingMissing], by decide⟩

/-- With no flow expectation, or an allowed flow, the two notions agree. -/
theorem C29_violation_display (b : Boundary) (h : b.flow ≠ some true) :
    b.isViolation = true ↔ ∃ i ∈ icons b, i.missing = true := by
  rw [C29_violation, C29_display]
  simp only [SomethingMissing, h, or_false]

/-- An assignment whose target is not written as a dereference gets no boundary at all, so the write
permission it needs is never asked for: `r.f = 1`, with `r : &mut T` or `r : &T`. -/
theorem C29_assignment_ignored : (∀ n l r, (∀ m x, l ≠ .deref m x) → visit (.assign n l r) = visit r) ∧
    visit (.assign ⟨0, none, false, false⟩ (.field ⟨1, none, false, false⟩ (.var ⟨2, none, false, false⟩))
      (.lit ⟨3, none, true, false⟩)) = [] := by
  refine ⟨fun n l r h => ?_, by simp [visit, Expr.isDeref]⟩
  cases l <;> simp_all [visit, Expr.isDeref]

/-- Reading a `Copy` field of a variable whose own type is not `Copy` is recorded as a move of the
variable: it expects ownership, although only reading is required. -/
theorem C29_field_copy : ∃ e : Expr, e.node.autoBorrow = none ∧ e.node.copy = true ∧
    e.node.Use = .copy ∧ ∃ b, visit e = [b] ∧ b.expected.drop = true ∧ ¬ Requires .copy b.expected :=
  ⟨.field ⟨0, none, true, false⟩ (.var ⟨1, none, false, false⟩), rfl, rfl, rfl,
    ⟨.var ⟨1, none, false, false⟩, false, fromMove⟩, by simp [visit, adjusted], rfl,
    by simp [Requires, Use.needsOwn, fromMove]⟩

/-! ## C30 -/

/-- Without an error, everything is reported, in order. -/
theorem C30_no_error (bs : List Boundary) : report none bs = bs := by
  simp [report]

/-- With an error, a boundary is reported iff it is at or before the end of the first error or carries a
flow expectation. -/
theorem C30_reported (e : Nat) (bs : List Boundary) (b : Boundary) :
    b ∈ report (some e) bs ↔ b ∈ bs ∧ (b.byteLocation ≤ e ∨ b.flow ≠ none) := by
  simp only [report, List.mem_filter, Bool.or_eq_true, decide_eq_true_eq, Option.isSome_iff_ne_none]
  grind

/-- What is reported keeps its order and multiplicity. -/
theorem C30_order (e : Option Nat) (bs cs : List Boundary) :
    (report e bs).Sublist bs ∧ report e (bs ++ cs) = report e bs ++ report e cs := by
  simp [report]

/-- Boundaries come out in the order of the uses in the source; each is made from one use. -/
theorem C30_body (mk : PathBoundary → Option Boundary) (e : Option Nat) (body : Expr) (b : Boundary) :
    b ∈ computeBoundaries mk e body ↔
      (∃ pb ∈ visit body, mk pb = some b) ∧ (∀ x, e = some x → b.byteLocation ≤ x ∨ b.flow ≠ none) := by
  cases e with
  | none => simp [computeBoundaries, C30_no_error]
  | some e => simp [computeBoundaries, C30_reported]

/-- They come out in the order of the uses, at most one for each. -/
theorem C30_body_order (mk : PathBoundary → Option Boundary) (e : Option Nat) (body : Expr) :
    ∃ us : List PathBoundary, us.Sublist (visit body) ∧
      us.map mk = (computeBoundaries mk e body).map some := by
  have key : ∀ l : List PathBoundary, ∃ us : List PathBoundary, us.Sublist l ∧
      us.map mk = (report e (l.filterMap mk)).map some := by
    intro l
    induction l with
    | nil => exact ⟨[], List.Sublist.refl _, by simp [report]⟩
    | cons x r ih =>
      obtain ⟨us, h1, h2⟩ := ih
      cases hx : mk x with
      | none => exact ⟨us, h1.cons _, by simp [hx, h2]⟩
      | some b =>
        rw [List.filterMap_cons_some hx]
        have h3 := (C30_order e [b] (r.filterMap mk)).2
        rw [List.singleton_append] at h3
        rw [h3]
        by_cases hb : report e [b] = [b]
        · exact ⟨x :: us, h1.cons_cons _, by simp [hx, h2, hb]⟩
        · refine ⟨us, h1.cons _, ?_⟩
          have : report e [b] = [] := by
            have hs := (C30_order e [b] []).1
            cases hr : report e [b] with
            | nil => rfl
            | cons y t =>
              rw [hr] at hs hb
              exact absurd (hs.eq_of_length_le (by simp)) hb
          simp [h2, this]
  exact key (visit body)

/-- An error ending at 10 drops the boundary at 11 and keeps the one at 10 and the flow one at 12. -/
example : (report (some 10) [⟨0, 10, ⟨true, false, false⟩, ⟨true, false, false⟩, none⟩,
      ⟨1, 11, ⟨true, false, false⟩, ⟨true, false, false⟩, none⟩,
      ⟨2, 12, ⟨true, false, false⟩, ⟨true, false, false⟩, some false⟩]).map (·.location) = [0, 2] := by
  decide

/-! ## C31 -/

theorem foldl_max_spec (key : α → Nat) (l : List α) (c : α) :
    let r := l.foldl (fun best x => if key best ≤ key x then x else best) c
    ∃ pre post, c :: l = pre ++ r :: post ∧ (∀ x ∈ pre, key x ≤ key r) ∧ (∀ x ∈ post, key x < key r) := by
  induction l generalizing c with
  | nil => exact ⟨[], [], rfl, by simp, by simp⟩
  | cons a l ih =>
    simp only [List.foldl_cons]
    split
    · rename_i h
      obtain ⟨pre, post, he, h1, h2⟩ := ih a
      refine ⟨c :: pre, post, by rw [he]; rfl, ?_, h2⟩
      intro x hx
      rcases List.mem_cons.1 hx with rfl | hx
      · cases pre with
        | nil => simp only [List.nil_append, List.cons.injEq] at he; rw [← he.1]; exact h
        | cons p pre =>
          simp only [List.cons_append, List.cons.injEq] at he
          have := h1 a (by rw [he.1]; simp)
          omega
      · exact h1 x hx
    · rename_i h
      obtain ⟨pre, post, he, h1, h2⟩ := ih c
      cases pre with
      | nil =>
        simp only [List.nil_append, List.cons.injEq] at he
        refine ⟨[], a :: l, by rw [← he.1]; rfl, by simp, ?_⟩
        intro x hx
        rw [← he.1]
        rcases List.mem_cons.1 hx with rfl | hx
        · omega
        · rw [he.2] at hx; have := h2 x hx; rw [← he.1] at this; exact this
      | cons p pre =>
        simp only [List.cons_append, List.cons.injEq] at he
        refine ⟨c :: a :: pre, post, by simpa using he.2, ?_, h2⟩
        have hc := h1 c (by rw [he.1]; simp)
        intro x hx
        simp only [List.mem_cons] at hx
        rcases hx with rfl | rfl | hx
        · exact hc
        · omega
        · exact h1 x (by simp [hx])

/-- The chosen use is one of the candidates. -/
theorem C31_member {similar : Option Nat} {cs : List (Nat × Place)} {c : Nat × Place}
    (h : select similar cs = some c) : c ∈ cs := by
  unfold select at h
  split at h
  · exact List.mem_of_mem_head? h
  · split at h
    · exact List.mem_of_find?_eq_some h
    · split at h
      · exact absurd h (by simp)
      · rename_i d hd
        generalize hf : (cs.filter (fun x => x.2.local_ == d.2.local_)).reverse = l at h
        cases l with
        | nil => simp [maxByProj] at h
        | cons x r =>
          simp only [maxByProj, Option.some.injEq] at h
          obtain ⟨pre, post, he, _, _⟩ := foldl_max_spec (fun x : Nat × Place => x.2.projection.length) r x
          rw [h] at he
          have : c ∈ (cs.filter (fun x => x.2.local_ == d.2.local_)).reverse := by rw [hf, he]; simp
          simp only [List.mem_reverse, List.mem_filter] at this
          exact this.1

/-- Nothing is chosen from an empty list; a single candidate is always chosen. -/
theorem C31_single (similar : Option Nat) (c : Nat × Place) :
    select similar [] = none ∧ select similar [c] = some c := by
  simp [select]

/-- When no variable resembles the source text, the candidate chosen is the first with the most specific
place among those of the first candidate's variable. -/
theorem C31_most_specific_partial (c0 : Nat × Place) (cs : List (Nat × Place)) :
    ∃ c, select none (c0 :: cs) = some c ∧ Best c0.2.local_ (c0 :: cs) c := by
  unfold select
  split
  · rename_i h
    have : cs = [] := by cases cs <;> simp_all
    subst this
    exact ⟨c0, rfl, [], [], rfl, rfl, by simp, by simp⟩
  · simp only [List.head?_cons]
    generalize hf : ((c0 :: cs).filter (fun x => x.2.local_ == c0.2.local_)).reverse = l
    cases l with
    | nil =>
      exfalso
      have : c0 ∈ ((c0 :: cs).filter (fun x => x.2.local_ == c0.2.local_)).reverse := by simp
      rw [hf] at this
      simp at this
    | cons x r =>
      refine ⟨_, rfl, ?_⟩
      obtain ⟨pre, post, he, h1, h2⟩ := foldl_max_spec (fun x : Nat × Place => x.2.projection.length) r x
      generalize hc : r.foldl (fun best x => if best.2.projection.length ≤ x.2.projection.length then x else best) x
        = c at he h1 h2
      rw [← hf] at he
      have he' : (c0 :: cs).filter (fun x => x.2.local_ == c0.2.local_) = post.reverse ++ c :: pre.reverse := by
        have := congrArg List.reverse he
        simpa using this
      have hlc : c.2.local_ = c0.2.local_ := by
        have : c ∈ (c0 :: cs).filter (fun x => x.2.local_ == c0.2.local_) := by rw [he']; simp
        simpa using (List.mem_filter.1 this).2
      obtain ⟨u, v, huv, hu, hv⟩ := List.filter_eq_append_iff.1 he'
      obtain ⟨a, b, hab, ha, _, _⟩ := List.filter_eq_cons_iff.1 hv
      refine ⟨u ++ a, b, by rw [huv, hab]; simp, hlc, ?_, ?_⟩
      · intro y hy hyl
        have : y ∈ (c0 :: cs).filter (fun x => x.2.local_ == c0.2.local_) := by
          simp only [List.mem_filter, hy, true_and]; simpa using hyl
        rw [he'] at this
        simp only [List.mem_append, List.mem_reverse, List.mem_cons] at this
        rcases this with h | rfl | h
        · have := h2 y h; omega
        · omega
        · exact h1 y h
      · intro y hy hyl
        rcases List.mem_append.1 hy with hy | hy
        · have : y ∈ post.reverse := by
            rw [← hu]
            simp only [List.mem_filter, hy, true_and]; simpa using hyl
          exact h2 y (by simpa using this)
        · have := ha y hy
          simp [hyl] at this

/-- When a variable resembles the source text, the first candidate of that variable is chosen, if any. -/
theorem C31_similar (l : Nat) (cs : List (Nat × Place)) (hlen : 2 ≤ cs.length) :
    (∀ c, select (some l) cs = some c ↔
      ∃ pre post, cs = pre ++ c :: post ∧ c.2.local_ = l ∧ ∀ x ∈ pre, x.2.local_ ≠ l) ∧
    (select (some l) cs = none ↔ ∀ x ∈ cs, x.2.local_ ≠ l) := by
  have hs : select (some l) cs = cs.find? (fun c => c.2.local_ == l) := by
    unfold select
    rw [if_neg (by omega)]
  rw [hs]
  constructor
  · intro c
    rw [List.find?_eq_some_iff_append]
    simp only [beq_iff_eq, Bool.not_eq_true', beq_eq_false_iff_ne]
    constructor
    · rintro ⟨h1, as, bs, h2, h3⟩; exact ⟨as, bs, h2, h1, h3⟩
    · rintro ⟨as, bs, h2, h1, h3⟩; exact ⟨h1, as, bs, h2, h3⟩
  · simp [List.find?_eq_none]

/-- One is chosen whenever there are candidates and the resembling variable, if there is one, is among
them. -/
theorem C31_chosen_partial (similar : Option Nat) (cs : List (Nat × Place)) (hne : cs ≠ [])
    (h : ∀ l, similar = some l → ∃ x ∈ cs, x.2.local_ = l) : ∃ c, select similar cs = some c := by
  cases similar with
  | none =>
    cases cs with
    | nil => exact absurd rfl hne
    | cons c0 cs => obtain ⟨c, hc, _⟩ := C31_most_specific_partial c0 cs; exact ⟨c, hc⟩
  | some l =>
    obtain ⟨x, hx, hl⟩ := h l rfl
    by_cases hlen : 2 ≤ cs.length
    · cases hsel : select (some l) cs with
      | some c => exact ⟨c, rfl⟩
      | none => exact absurd hl ((C31_similar l cs hlen).2.1 hsel x hx)
    · cases cs with
      | nil => exact absurd rfl hne
      | cons c r =>
        cases r with
        | nil => exact ⟨c, (C31_single (some l) c).2⟩
        | cons d r => simp at hlen

/-- The full statement is false: with several candidates none of which belongs to the variable that the
source text resembles most, none is chosen. -/
theorem C31_none_chosen : ∃ (l : Nat) (cs : List (Nat × Place)), cs ≠ [] ∧ select (some l) cs = none :=
  ⟨7, [(0, ⟨1, []⟩), (1, ⟨1, [.deref]⟩)], by simp, by decide⟩

/-- And when there is a resembling variable, the first use of it is chosen, not the most specific: for
`a[i]` this is the bounds check's use of `a`. -/
theorem C31_not_most_specific : ∃ (l : Nat) (cs : List (Nat × Place)) (c : Nat × Place),
    select (some l) cs = some c ∧ ¬ Best l cs c :=
  ⟨1, [(0, ⟨1, []⟩), (1, ⟨1, [.index 2]⟩)], (0, ⟨1, []⟩), by decide, by
    rintro ⟨pre, post, _, _, h, _⟩
    have := h (1, ⟨1, [.index 2]⟩) (by simp) rfl
    simp at this⟩

theorem select_iff (similar : Option Nat) (cs : List (Nat × Place)) (c : Nat × Place) :
    select similar cs = some c ↔ Chosen similar cs c := by
  match cs with
  | [] => simp [select, Chosen]
  | [d] => simp [select, Chosen]
  | d :: e :: r =>
    unfold Chosen
    have h1 : ¬ d :: e :: r = [c] := by simp
    have h2 : 2 ≤ (d :: e :: r).length := by simp
    simp only [h1, h2, true_and, false_or]
    cases similar with
    | some l =>
      rw [(C31_similar l _ h2).1]
      simp
    | none =>
      obtain ⟨c', hc, hb⟩ := C31_most_specific_partial d (e :: r)
      rw [hc]
      simp only [Option.some.injEq, List.head?_cons, true_and, exists_eq_left', reduceCtorEq, false_and,
        exists_false, false_or]
      constructor
      · rintro rfl; exact hb
      · intro hb'
        obtain ⟨pre, post, he, hl, hm, hp⟩ := hb
        obtain ⟨pre', post', he', hl', hm', hp'⟩ := hb'
        have hc1 : c' ∈ d :: e :: r := by rw [he]; simp
        have hc2 : c ∈ d :: e :: r := by rw [he']; simp
        have a1 := hm c hc2 hl'
        have a2 := hm' c' hc1 hl
        rcases List.append_eq_append_iff.1 (he.symm.trans he') with ⟨a, ha, hb⟩ | ⟨a, ha, hb⟩
        · cases a with
          | nil => simp only [List.nil_append, List.cons.injEq] at hb; exact hb.1
          | cons x a =>
            simp only [List.cons_append, List.cons.injEq] at hb
            have := hp' c' (by rw [ha, ← hb.1]; simp) hl
            omega
        · cases a with
          | nil => simp only [List.nil_append, List.cons.injEq] at hb; exact hb.1.symm
          | cons x a =>
            simp only [List.cons_append, List.cons.injEq] at hb
            have := hp c (by rw [ha, ← hb.1]; simp) hl'
            omega

theorem pathsAt_eq (visible : Place → Bool) (isLhs : Bool) (st : List (Nat × Stmt)) (sim : Option Nat) :
    pathsAt visible isLhs st = Site.cands visible isLhs ⟨some st, sim⟩ := by
  unfold pathsAt Site.cands
  congr 1
  funext i
  congr 1
  cases i.2 with
  | assign l r =>
    cases isLhs <;> simp only [lookInStatement, Stmt.Uses, if_true, if_false, Bool.false_eq_true]
    simp [List.filter_cons]
  | _ => simp [lookInStatement, Stmt.Uses, List.filter_cons]

theorem searchAt_iff (visible : Place → Bool) (isLhs : Bool) (s : Site) (c : Nat × Place) :
    searchAt visible isLhs s = some c ↔ Chosen s.similar (s.cands visible isLhs) c := by
  obtain ⟨st, sim⟩ := s
  unfold searchAt
  cases st with
  | none => simp [Chosen, Site.cands]
  | some st => dsimp only; rw [pathsAt_eq (sim := sim)]; exact select_iff _ _ _

theorem resolve_iff (visible : Place → Bool) (isLhs : Bool) (chain : List Site) (c : Nat × Place) :
    resolve visible isLhs chain = some c ↔
      ∃ pre s post, chain = pre ++ s :: post ∧ searchAt visible isLhs s = some c ∧
        ∀ x ∈ pre, searchAt visible isLhs x = none := by
  unfold resolve
  induction chain with
  | nil => simp
  | cons a r ih =>
    rw [List.findSome?_cons]
    cases ha : searchAt visible isLhs a with
    | some d =>
      simp only [Option.some.injEq]
      constructor
      · rintro rfl; exact ⟨[], a, r, rfl, ha, by simp⟩
      · rintro ⟨pre, s, post, he, hs, hp⟩
        cases pre with
        | nil =>
          simp only [List.nil_append, List.cons.injEq] at he
          rw [he.1] at ha; rw [ha] at hs; simpa using hs
        | cons p pre =>
          simp only [List.cons_append, List.cons.injEq] at he
          have := hp p (by simp)
          rw [← he.1, ha] at this
          exact absurd this (by simp)
    | none =>
      simp only [ih]
      constructor
      · rintro ⟨pre, s, post, he, hs, hp⟩
        refine ⟨a :: pre, s, post, by rw [he]; rfl, hs, ?_⟩
        intro x hx
        rcases List.mem_cons.1 hx with rfl | hx
        · exact ha
        · exact hp x hx
      · rintro ⟨pre, s, post, he, hs, hp⟩
        cases pre with
        | nil =>
          simp only [List.nil_append, List.cons.injEq] at he
          rw [← he.1, ha] at hs
          exact absurd hs (by simp)
        | cons p pre =>
          simp only [List.cons_append, List.cons.injEq] at he
          exact ⟨pre, s, post, he.2, hs, fun x hx => hp x (by simp [hx])⟩

/-- **C31.** The place used for a boundary is the one chosen among the visible places of the nearest
enclosing expression for which a choice can be made. -/
theorem C31_nearest (visible : Place → Bool) (isLhs : Bool) (chain : List Site) (c : Nat × Place) :
    resolve visible isLhs chain = some c ↔
      ∃ pre s post, chain = pre ++ s :: post ∧ Chosen s.similar (s.cands visible isLhs) c ∧
        ∀ x ∈ pre, ∀ d, ¬ Chosen x.similar (x.cands visible isLhs) d := by
  rw [resolve_iff]
  simp only [← searchAt_iff, Option.eq_none_iff_forall_ne_some, ne_eq]

theorem C31_resolve_use {visible : Place → Bool} {isLhs : Bool} {chain : List Site} {c : Nat × Place}
    (h : resolve visible isLhs chain = some c) :
    ∃ s ∈ chain, ∃ st, s.stmts = some st ∧ ∃ i ∈ st, i.1 = c.1 ∧ visible c.2 = true ∧
      match i.2 with
      | .assign lhs rhs => if isLhs then c.2 = lhs else c.2 ∈ rhs
      | .setDiscriminant p => c.2 = p
      | .fakeRead p => c.2 = p
      | .other => False := by
  obtain ⟨pre, s, post, he, hs, _⟩ := (resolve_iff visible isLhs chain c).1 h
  refine ⟨s, by rw [he]; simp, ?_⟩
  unfold searchAt at hs
  split at hs
  · exact absurd hs (by simp)
  · rename_i st hst
    refine ⟨st, hst, ?_⟩
    have hm := C31_member hs
    simp only [pathsAt, List.mem_flatMap, List.mem_map] at hm
    obtain ⟨i, hi, p, hp, rfl⟩ := hm
    refine ⟨i, hi, rfl, ?_⟩
    cases hi2 : i.2 with
    | assign lhs rhs =>
      rw [hi2] at hp
      simp only [lookInStatement] at hp
      split at hp
      · rename_i hl
        split at hp
        · simp only [List.mem_singleton] at hp; subst hp; simp_all
        · simp at hp
      · rename_i hl
        simp only [List.mem_filter] at hp
        exact ⟨hp.2, by simp [hp.1, hl]⟩
    | setDiscriminant q =>
      rw [hi2] at hp
      simp only [lookInStatement] at hp
      split at hp
      · simp only [List.mem_singleton] at hp; subst hp; simp_all
      · simp at hp
    | fakeRead q =>
      rw [hi2] at hp
      simp only [lookInStatement] at hp
      split at hp
      · simp only [List.mem_singleton] at hp; subst hp; simp_all
      · simp at hp
    | other => rw [hi2] at hp; simp [lookInStatement] at hp

/-! ## C61: every use of a variable is covered -/

mutual
theorem visit_covers : (e : Expr) → (visit e).flatMap (fun b => occ b.node) = occ e
  | .match_ _ d arms => by
    have h1 := visit_covers d
    have h2 := visitAll_covers arms
    simp only [visit, occ]
    split <;> simp [h1, h2]
  | .methodCall _ x rcvr args => by
    have h1 := visit_covers rcvr
    have h2 := visitAll_covers args
    simp only [visit, occ]
    split <;> simp [h1, h2]
  | .addrOf n m e => by
    have h1 := visit_covers e
    simp only [visit, occ]
    split <;> simp [h1, occ]
  | .assign _ l r => by
    have h1 := visit_covers r
    cases l <;> simp [visit, occ, Expr.isDeref, h1]
  | .assignOp _ l r => by
    have h1 := visit_covers r
    simp only [visit, occ]
    simp [h1]
  | .deref n e => by
    have h1 := visit_covers e
    simp only [visit, occ]
    split <;> simp [h1, occ]
  | .var n => by
    simp only [visit, occ]
    split <;> simp_all [occ]
  | .lit _ => by simp [visit, occ]
  | .item _ => by simp [visit, occ]
  | .field _ e => by simpa [visit, occ] using visit_covers e
  | .index _ a i => by simp [visit, occ, visit_covers a, visit_covers i]
  | .other _ cs => by simpa [visit, occ] using visitAll_covers cs
theorem visitAll_covers : (es : List Expr) → (visitAll es).flatMap (fun b => occ b.node) = occAll es
  | [] => by simp [visitAll, occAll]
  | e :: r => by simp [visitAll, occAll, visit_covers e, visitAll_covers r]
end

/-- Whatever the program, the boundaries' expressions cover every occurrence of a variable exactly once,
in order. -/
theorem C61_covered (e : Expr) : (visit e).flatMap (fun b => occ b.node) = occ e := visit_covers e

theorem chain_occ {e : Expr} (h : Chain e) : (occ e).length = 1 := by
  induction h with
  | var n h => simp [occ, h]
  | field n _ ih => simpa [occ] using ih
  | deref n _ ih => simpa [occ] using ih

theorem lengths : (l : List PathBoundary) → (∀ b ∈ l, (occ b.node).length = 1) →
    l.length = (l.flatMap (fun b => occ b.node)).length
  | [], _ => rfl
  | b :: r, h => by
    simp only [List.length_cons, List.flatMap_cons, List.length_append, h b (by simp),
      lengths r (fun x hx => h x (by simp [hx]))]
    omega

mutual
theorem visit_single : (e : Expr) → SimplePlaces e → ∀ b ∈ visit e, (occ b.node).length = 1
  | .match_ _ d arms, h, b, hb => by
    cases h with
    | match_ _ h1 h2 h3 =>
      simp only [visit] at hb
      split at hb
      · rename_i hp
        rcases List.mem_cons.1 hb with rfl | hb
        · exact chain_occ (h2 (noLit_iff.1 hp).1 (noLit_iff.1 hp).2)
        · exact visitAll_single arms h3 b hb
      · rcases List.mem_append.1 hb with hb | hb
        · exact visit_single d h1 b hb
        · exact visitAll_single arms h3 b hb
  | .methodCall _ x rcvr args, h, b, hb => by
    cases h with
    | methodCall _ _ h1 h2 h3 =>
      simp only [visit] at hb
      split at hb
      · rename_i hp
        simp only [Bool.and_eq_true] at hp
        rcases List.mem_cons.1 hb with rfl | hb
        · exact chain_occ (h2 (noLit_iff.1 hp.2).1 (noLit_iff.1 hp.2).2)
        · exact visitAll_single args h3 b hb
      · rcases List.mem_append.1 hb with hb | hb
        · exact visit_single rcvr h1 b hb
        · exact visitAll_single args h3 b hb
  | .addrOf n m e, h, b, hb => by
    cases h with
    | addrOf _ _ h1 h2 =>
      simp only [visit] at hb
      split at hb
      · rename_i hp
        simp only [Bool.and_eq_true] at hp
        simp only [List.mem_singleton] at hb
        subst hb
        simpa [occ] using chain_occ (h2 (syntactic_iff.1 hp.1))
      · exact visit_single e h1 b hb
  | .assign _ l r, h, b, hb => by
    cases h with
    | assign _ h1 h2 =>
      simp only [visit] at hb
      split at hb
      · rename_i hp
        rcases List.mem_cons.1 hb with rfl | hb
        · cases l <;> simp only [Expr.isDeref, Bool.false_eq_true] at hp
          exact chain_occ (h2 _ _ rfl)
        · exact visit_single r h1 b hb
      · exact visit_single r h1 b hb
  | .assignOp _ l r, h, b, hb => by
    cases h with
    | assignOp _ h1 h2 =>
      simp only [visit] at hb
      rcases List.mem_cons.1 hb with rfl | hb
      · exact chain_occ h2
      · exact visit_single r h1 b hb
  | .deref n e, h, b, hb => by
    cases h with
    | deref _ h1 h2 =>
      simp only [visit] at hb
      split at hb
      · rename_i hp
        simp only [Bool.and_eq_true] at hp
        simp only [List.mem_singleton] at hb
        subst hb
        simpa [occ] using chain_occ (h2 (syntactic_iff.1 hp.1))
      · exact visit_single e h1 b hb
  | .var n, _, b, hb => by
    simp only [visit] at hb
    split at hb
    · simp at hb
    · simp only [List.mem_singleton] at hb
      subst hb
      simp_all [occ]
  | .lit _, _, b, hb => by simp [visit] at hb
  | .item _, _, b, hb => by simp [visit] at hb
  | .field _ e, h, b, hb => by
    cases h with
    | field _ h1 => exact visit_single e h1 b (by simpa [visit] using hb)
  | .index _ a i, h, b, hb => by
    cases h with
    | index _ h1 h2 =>
      simp only [visit, List.mem_append] at hb
      rcases hb with hb | hb
      · exact visit_single a h1 b hb
      · exact visit_single i h2 b hb
  | .other _ cs, h, b, hb => by
    cases h with
    | other _ h1 => exact visitAll_single cs h1 b (by simpa [visit] using hb)
theorem visitAll_single : (es : List Expr) → (∀ e ∈ es, SimplePlaces e) →
    ∀ b ∈ visitAll es, (occ b.node).length = 1
  | [], _, b, hb => by simp [visitAll] at hb
  | e :: r, h, b, hb => by
    simp only [visitAll, List.mem_append] at hb
    rcases hb with hb | hb
    · exact visit_single e (h e (by simp)) b hb
    · exact visitAll_single r (fun x hx => h x (by simp [hx])) b hb
end

/-- In programs whose places are variables followed by fields and dereferences, every occurrence of a
variable has its own boundary.  Missing for the full claim: indexing and temporaries inside places. -/
theorem C61_exact_partial (e : Expr) (h : SimplePlaces e) :
    (visit e).length = (occ e).length ∧ ∀ b ∈ visit e, ∃ v, occ b.node = [v] := by
  refine ⟨?_, ?_⟩
  · rw [lengths _ (visit_single e h), C61_covered]
  · intro b hb
    exact List.length_eq_one_iff.1 (visit_single e h b hb)

/-- `f(&mut x.g, *y, z)`. -/
example : ∃ e, SimplePlaces e ∧ (visit e).length = 3 ∧ occ e = [1, 2, 3] := by
  refine ⟨.other ⟨0, none, false, false⟩
    [.addrOf ⟨4, none, false, false⟩ true (.field ⟨5, none, false, false⟩ (.var ⟨1, none, false, false⟩)),
     .deref ⟨6, none, true, false⟩ (.var ⟨2, none, false, false⟩), .var ⟨3, none, false, false⟩], ?_, ?_, ?_⟩
  · refine .other _ ?_
    intro a ha
    simp only [List.mem_cons, List.not_mem_nil, or_false] at ha
    rcases ha with rfl | rfl | rfl
    · exact .addrOf _ _ (.field _ (.var _)) (fun _ => .field _ (.var _ rfl))
    · exact .deref _ (.var _) (fun _ => .var _ rfl)
    · exact .var _
  · decide
  · decide

/-- `&a[i]` uses two variables and gets one boundary: nothing is shown for `i`, even if reading it is an
error. -/
theorem C61_index_lost : ∃ e, occ e = [1, 2] ∧ (visit e).length = 1 :=
  ⟨.addrOf ⟨0, none, false, false⟩ false
    (.index ⟨3, none, false, false⟩ (.var ⟨1, none, false, false⟩) (.var ⟨2, none, true, false⟩)),
    by decide, by decide⟩

/-- `f(a).x.g()`: the move of `a` into `f` gets no boundary of its own; the only one expects whatever the
receiver expects. -/
theorem C61_temporary_lost : ∃ e b, occ e = [1] ∧ visit e = [b] ∧ b.expected = ⟨true, false, false⟩ :=
  ⟨.methodCall ⟨0, none, false, false⟩ false (.field ⟨3, some false, false, false⟩
    (.other ⟨4, none, false, false⟩ [.item ⟨5, none, true, false⟩, .var ⟨1, none, false, false⟩])) [],
    ⟨_, _, _⟩, by decide, rfl, rfl⟩

end Verif.Boundaries
