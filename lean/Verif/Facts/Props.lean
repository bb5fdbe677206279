import Verif.Facts.Lemmas
import Verif.Permissions.Props
/-!
# C23 to C26: the facts behind permissions
-/
namespace Verif.Facts
open Spec

/-! ## Walks -/

theorem walk_snoc {edges : List (Nat × Nat)} {l : List Nat} {p q : Nat} :
    Walk edges (l ++ [p] ++ [q]) ↔ Walk edges (l ++ [p]) ∧ (p, q) ∈ edges := by
  induction l with
  | nil => simp [Walk]
  | cons a l ih =>
    cases l with
    | nil => simp [Walk]
    | cons b l =>
      simp only [List.cons_append, Walk] at ih ⊢
      rw [ih, and_assoc]

theorem killed_iff {i : Input} {mv point path source : Nat} (h : i.moves[mv]? = some (path, source)) :
    killed i mv point = true ↔ AssignedAt i path point := by
  unfold killed AssignedAt
  rw [h]
  simp only [List.any_eq_true, Bool.and_eq_true, beq_iff_eq, Prod.exists]
  constructor
  · rintro ⟨a, b, h1, rfl, h2⟩; exact ⟨a, h1, h2⟩
  · rintro ⟨a, h1, h2⟩; exact ⟨a, point, h1, rfl, h2⟩

theorem mem_moveInit {i : Input} {mv p : Nat} :
    (mv, p) ∈ moveInit i ↔ ∃ path, i.moves[mv]? = some (path, p) := by
  unfold moveInit
  simp only [List.mem_map, Prod.exists, Prod.mk.injEq]
  constructor
  · rintro ⟨a, b, c, h1, rfl, rfl⟩
    exact ⟨a, List.mem_zipIdx_iff_getElem?.1 h1⟩
  · rintro ⟨a, h⟩
    exact ⟨a, p, mv, List.mem_zipIdx_iff_getElem?.2 h, rfl, rfl⟩

theorem mem_moveRule {i : Input} {mv p mv' q : Nat} :
    (mv', q) ∈ moveRule i (mv, p) ↔ mv' = mv ∧ (p, q) ∈ i.cfgEdge ∧ killed i mv q = false := by
  unfold moveRule
  simp only [List.mem_map, List.mem_filter, Prod.exists, Prod.mk.injEq, beq_iff_eq, Bool.not_eq_true']
  constructor
  · rintro ⟨a, b, ⟨⟨h1, rfl⟩, h2⟩, rfl, rfl⟩; exact ⟨rfl, h1, h2⟩
  · rintro ⟨rfl, h1, h2⟩; exact ⟨p, q, ⟨⟨h1, rfl⟩, h2⟩, rfl, rfl⟩

/-- What the iteration computes for moves. -/
theorem closure_move {i : Input} {mv p : Nat} :
    Closure (moveRule i) (moveInit i) (mv, p) ↔
      ∃ path source, i.moves[mv]? = some (path, source) ∧ (p = source ∨
        ∃ between, Walk i.cfgEdge (source :: (between ++ [p])) ∧
          ∀ q ∈ between ++ [p], ¬ AssignedAt i path q) := by
  constructor
  · intro h
    generalize hx : (mv, p) = x at h
    induction h generalizing mv p with
    | base hb =>
      subst hx
      obtain ⟨path, h1⟩ := mem_moveInit.1 hb
      exact ⟨path, p, h1, .inl rfl⟩
    | @step x y hc hy ih =>
      subst hx
      obtain ⟨mv', p'⟩ := x
      obtain ⟨rfl, h2, h3⟩ := mem_moveRule.1 hy
      obtain ⟨path, source, h4, h5⟩ := ih rfl
      have hk : ¬ AssignedAt i path p := by
        rw [← killed_iff h4, h3]; simp
      refine ⟨path, source, h4, .inr ?_⟩
      rcases h5 with rfl | ⟨between, h5, h6⟩
      · exact ⟨[], ⟨h2, trivial⟩, by simpa using hk⟩
      · refine ⟨between ++ [p'], ?_, ?_⟩
        · have := (walk_snoc (l := source :: between)).2 ⟨h5, h2⟩
          simpa using this
        · intro q hq
          rcases List.mem_append.1 hq with hq | hq
          · exact h6 q hq
          · simp only [List.mem_singleton] at hq
            subst hq; exact hk
  · rintro ⟨path, source, h1, h2⟩
    have hbase : Closure (moveRule i) (moveInit i) (mv, source) := .base (mem_moveInit.2 ⟨path, h1⟩)
    rcases h2 with rfl | ⟨between, h2, h3⟩
    · exact hbase
    · have : ∀ n (between : List Nat) p, between.length = n → Walk i.cfgEdge (source :: (between ++ [p])) →
          (∀ q ∈ between ++ [p], ¬ AssignedAt i path q) → Closure (moveRule i) (moveInit i) (mv, p) := by
        intro n
        induction n with
        | zero =>
          intro between p hl hw hn
          have : between = [] := List.length_eq_zero_iff.1 hl
          subst this
          refine .step hbase (mem_moveRule.2 ⟨rfl, hw.1, ?_⟩)
          have := hn p (by simp)
          rw [← killed_iff h1] at this
          simpa using this
        | succ n ih =>
          intro between p hl hw hn
          rcases List.eq_nil_or_concat between with rfl | ⟨b, x, rfl⟩
          · simp at hl
          · have hw' : Walk i.cfgEdge ((source :: b) ++ [x] ++ [p]) := by simpa using hw
            rw [walk_snoc] at hw'
            have hx := ih b x (by simpa using hl) hw'.1 (fun q hq => hn q (by simp at hq ⊢; grind))
            refine .step hx (mem_moveRule.2 ⟨rfl, hw'.2, ?_⟩)
            have := hn p (by simp)
            rw [← killed_iff h1] at this
            simpa using this
      exact this _ between p rfl h2 h3

theorem reaches_iff {i : Input} {mv point : Nat} :
    Reaches i mv point ↔ ∃ p, Closure (moveRule i) (moveInit i) (mv, p) ∧ (p, point) ∈ i.cfgEdge := by
  constructor
  · rintro ⟨path, source, between, h1, h2, h3⟩
    rcases List.eq_nil_or_concat between with rfl | ⟨b, x, rfl⟩
    · exact ⟨source, closure_move.2 ⟨path, source, h1, .inl rfl⟩, h2.1⟩
    · have h2' : Walk i.cfgEdge ((source :: b) ++ [x] ++ [point]) := by simpa using h2
      rw [walk_snoc] at h2'
      exact ⟨x, closure_move.2 ⟨path, source, h1, .inr ⟨b, h2'.1, by simpa using h3⟩⟩, h2'.2⟩
  · rintro ⟨p, h1, h2⟩
    obtain ⟨path, source, h3, rfl | ⟨between, h4, h5⟩⟩ := closure_move.1 h1
    · exact ⟨path, p, [], h3, ⟨h2, trivial⟩, by simp⟩
    · refine ⟨path, source, between ++ [p], h3, ?_, h5⟩
      have := (walk_snoc (l := source :: between)).2 ⟨h4, h2⟩
      simpa using this

theorem mem_moveConflicts {i : Input} {mv path : Nat} :
    (mv, path) ∈ moveConflicts i ↔ Touches i mv path := by
  unfold moveConflicts Touches
  simp only [List.mem_flatMap, List.mem_map, List.mem_append, Prod.exists, Prod.mk.injEq]
  constructor
  · rintro ⟨a, b, c, h1, x, h2, rfl, rfl⟩
    exact ⟨a, b, List.mem_zipIdx_iff_getElem?.1 h1, h2⟩
  · rintro ⟨a, b, h1, h2⟩
    exact ⟨a, b, mv, List.mem_zipIdx_iff_getElem?.2 h1, path, h2, rfl, rfl⟩

theorem closure_uninit {i : Input} {path point : Nat} :
    Closure (uninitRule i) (uninitInit i) (path, point) ↔ MaybeUninit i path point := by
  have hrule : ∀ a b c d, (c, d) ∈ uninitRule i (a, b) ↔ d = b ∧ (a, c) ∈ i.childPath := by
    intro a b c d
    unfold uninitRule
    simp only [List.mem_map, List.mem_filter, Prod.exists, Prod.mk.injEq, beq_iff_eq]
    constructor
    · rintro ⟨x, y, ⟨h1, rfl⟩, rfl, rfl⟩; exact ⟨rfl, h1⟩
    · rintro ⟨rfl, h1⟩; exact ⟨a, c, ⟨h1, rfl⟩, rfl, rfl⟩
  constructor
  · intro h
    generalize hx : (path, point) = x at h
    induction h generalizing path point with
    | base hb =>
      subst hx
      unfold uninitInit at hb
      obtain ⟨k, v, w, h1, h2, h3⟩ := mem_join.1 hb
      simp only [Prod.mk.injEq] at h3
      obtain ⟨rfl, rfl⟩ := h3
      exact ⟨k, path, h2, h1, .self⟩
    | @step x y hc hy ih =>
      subst hx
      obtain ⟨a, b⟩ := x
      obtain ⟨rfl, h1⟩ := (hrule _ _ _ _).1 hy
      obtain ⟨pred, desc, h2, h3, h4⟩ := ih rfl
      exact ⟨pred, desc, h2, h3, .up h4 h1⟩
  · rintro ⟨pred, desc, h1, h2, h3⟩
    induction h3 with
    | self => exact .base (mem_join.2 ⟨pred, desc, point, h2, h1, rfl⟩)
    | up _ hc ih => exact .step ih ((hrule _ _ _ _).2 ⟨rfl, hc⟩)

theorem mem_loanConflicts {i : Input} {loan path : Nat} :
    (loan, path) ∈ loanConflicts i ↔
      loan ∈ i.issued ∧ path ∈ i.paths ∧ i.conflict (i.borrowed loan) path = true := by
  unfold loanConflicts
  simp only [List.mem_flatMap, List.mem_map, List.mem_filter, Prod.mk.injEq]
  constructor
  · rintro ⟨l, h1, p, ⟨h2, h3⟩, rfl, rfl⟩; exact ⟨h1, h2, h3⟩
  · rintro ⟨h1, h2, h3⟩; exact ⟨loan, h1, path, ⟨h2, h3⟩, rfl, rfl⟩

/-! ## The result -/

/-- **C23/C24 (termination).** The computation of the facts always ends. -/
theorem C24_terminates (i : Input) : ∃ fuel o, derive fuel i = some o := by
  have hm : ∀ x, Closure (moveRule i) (moveInit i) x →
      x ∈ (List.range i.moves.length).flatMap (fun m =>
        (i.moves.map Prod.snd ++ i.cfgEdge.map Prod.snd).map (fun p => (m, p))) := by
    intro x hx
    simp only [List.mem_flatMap, List.mem_range, List.mem_map, List.mem_append]
    induction hx with
    | @base x hb =>
      obtain ⟨mv, p⟩ := x
      obtain ⟨path, h1⟩ := mem_moveInit.1 hb
      exact ⟨mv, (List.getElem?_eq_some_iff.1 h1).1, p, .inl ⟨_, List.mem_of_getElem? h1, rfl⟩, rfl⟩
    | @step x y _ hy ih =>
      obtain ⟨mv, p⟩ := x
      obtain ⟨mv', q⟩ := y
      obtain ⟨rfl, h2, -⟩ := mem_moveRule.1 hy
      obtain ⟨m, h3, p', -, h5⟩ := ih
      simp only [Prod.mk.injEq] at h5
      obtain ⟨rfl, -⟩ := h5
      exact ⟨m, h3, q, .inr ⟨_, h2, rfl⟩, rfl⟩
  have hu : ∀ x, Closure (uninitRule i) (uninitInit i) x →
      x ∈ (i.uninitExit.map Prod.snd ++ i.childPath.map Prod.snd).flatMap (fun pa =>
        (i.cfgEdge.map Prod.snd).map (fun p => (pa, p))) := by
    intro x hx
    obtain ⟨path, point⟩ := x
    obtain ⟨pred, desc, h1, h2, h3⟩ := closure_uninit.1 hx
    simp only [List.mem_flatMap, List.mem_map, List.mem_append]
    refine ⟨path, ?_, point, ⟨_, h1, rfl⟩, rfl⟩
    cases h3 with
    | self => exact .inl ⟨_, h2, rfl⟩
    | up _ hc => exact .inr ⟨_, hc, rfl⟩
  obtain ⟨fuel, ⟨r₁, r₂⟩, hr⟩ := iterate_ends hm hu (Inv.start _ _) (Inv.start _ _)
  exact ⟨fuel, _, by simp only [derive, hr]; rfl⟩

/-- Everything about the result in terms of the specification. -/
theorem derive_spec {fuel : Nat} {i : Input} {o : Output} (h : derive fuel i = some o) :
    (∀ point path k, o.moveRefined point path = some k ↔
      IsMax (fun mv => Touches i mv path ∧ Reaches i mv point) k) ∧
    (∀ point path, o.moveRefined point path = none ↔ ¬ ∃ mv, Touches i mv path ∧ Reaches i mv point) ∧
    (∀ point path, o.uninitEntry point path = true ↔ MaybeUninit i path point) ∧
    (∀ point path k, o.loanReadRefined point path = some k ↔
      IsMax (fun l => LiveOverlap i l path point ∧ i.isMutLoan l = true) k) ∧
    (∀ point path, o.loanReadRefined point path = none ↔
      ¬ ∃ l, LiveOverlap i l path point ∧ i.isMutLoan l = true) ∧
    (∀ point path k, o.loanWriteRefined point path = some k ↔
      IsMax (fun l => LiveOverlap i l path point) k) ∧
    (∀ point path, o.loanWriteRefined point path = none ↔ ¬ ∃ l, LiveOverlap i l path point) ∧
    (∀ point path, o.loanDropRefined point path = o.loanWriteRefined point path) ∧
    (∀ point mv, mv ∈ o.moveLiveAt point ↔ Reaches i mv point) ∧
    ∀ point, (o.moveLiveAt point).Nodup := by
  unfold derive at h
  split at h
  · simp at h
  · rename_i liveExit uninit hit
    obtain ⟨c1, c2⟩ := iterate_correct (Inv.start _ _) (Inv.start _ _) hit
    simp only [Option.some.injEq] at h
    subst h
    have hlive : ∀ mv point, (mv, point) ∈ (liveExit.flatMap (fun x =>
        (i.cfgEdge.filter (fun e => e.1 == x.2)).map (fun e => (x.1, e.2)))) ↔ Reaches i mv point := by
      intro mv point
      rw [reaches_iff]
      simp only [List.mem_flatMap, List.mem_map, List.mem_filter, Prod.exists, beq_iff_eq, Prod.mk.injEq, c1]
      constructor
      · rintro ⟨a, b, h1, c, d, ⟨h2, rfl⟩, rfl, rfl⟩; exact ⟨_, h1, h2⟩
      · rintro ⟨p, h1, h2⟩; exact ⟨mv, p, h1, p, point, ⟨h2, rfl⟩, rfl, rfl⟩
    have hmove : ∀ path mv point, (path, mv, point) ∈ join (moveConflicts i)
        (rel2 (liveExit.flatMap (fun x => (i.cfgEdge.filter (fun e => e.1 == x.2)).map (fun e => (x.1, e.2)))))
        (fun mv path point => (path, mv, point)) ↔ Touches i mv path ∧ Reaches i mv point := by
      intro path mv point
      rw [mem_join]
      simp only [mem_moveConflicts, mem_rel2, hlive, Prod.mk.injEq]
      constructor
      · rintro ⟨k, v, w, h1, h2, rfl, rfl, rfl⟩; exact ⟨h1, h2⟩
      · rintro ⟨h1, h2⟩; exact ⟨mv, path, point, h1, h2, rfl, rfl, rfl⟩
    have hread : ∀ path l point, (path, l, point) ∈ (loanConflicts i).flatMap (fun lp =>
        ((i.loanLive.filter (fun l => l.1 == lp.1)).filter (fun _ => i.isMutLoan lp.1)).map
          (fun l => (lp.2, lp.1, l.2))) ↔ LiveOverlap i l path point ∧ i.isMutLoan l = true := by
      intro path l point
      simp only [List.mem_flatMap, List.mem_map, List.mem_filter, Prod.exists, beq_iff_eq, Prod.mk.injEq,
        mem_loanConflicts, LiveOverlap]
      constructor
      · rintro ⟨a, b, ⟨h1, h2, h3⟩, c, d, ⟨⟨h4, rfl⟩, h5⟩, rfl, rfl, rfl⟩
        exact ⟨⟨h1, h4, h2, h3⟩, h5⟩
      · rintro ⟨⟨h1, h4, h2, h3⟩, h5⟩
        exact ⟨l, path, ⟨h1, h2, h3⟩, l, point, ⟨⟨h4, rfl⟩, h5⟩, rfl, rfl, rfl⟩
    have hany : ∀ path l point, (path, l, point) ∈ join (loanConflicts i) i.loanLive
        (fun loan path point => (path, loan, point)) ↔ LiveOverlap i l path point := by
      intro path l point
      rw [mem_join]
      simp only [mem_loanConflicts, LiveOverlap, Prod.mk.injEq]
      constructor
      · rintro ⟨k, v, w, ⟨h1, h2, h3⟩, h4, rfl, rfl, rfl⟩; exact ⟨h1, h4, h2, h3⟩
      · rintro ⟨h1, h4, h2, h3⟩; exact ⟨l, path, point, ⟨h1, h2, h3⟩, h4, rfl, rfl, rfl⟩
    refine ⟨?_, ?_, ?_, ?_, ?_, ?_, ?_, ?_, ?_, ?_⟩
    · intro point path k
      rw [insertFacts_max.2]; simp only [hmove]
    · intro point path
      rw [insertFacts_max.1]; simp only [hmove, not_exists]
    · intro point path
      simp only [List.any_eq_true, beq_iff_eq]
      rw [← closure_uninit, ← c2]
      constructor
      · rintro ⟨x, h1, rfl⟩; exact h1
      · intro h1; exact ⟨_, h1, rfl⟩
    · intro point path k
      rw [insertFacts_max.2]; simp only [hread]
    · intro point path
      rw [insertFacts_max.1]; simp only [hread, not_exists]
    · intro point path k
      rw [insertFacts_max.2]; simp only [hany]
    · intro point path
      rw [insertFacts_max.1]; simp only [hany, not_exists]
    · intro point path; rfl
    · intro point mv
      simp only [List.mem_map, List.mem_filter, Prod.exists, beq_iff_eq, mem_rel2, hlive]
      constructor
      · rintro ⟨a, b, ⟨h1, rfl⟩, rfl⟩; exact h1
      · intro h1; exact ⟨mv, point, ⟨h1, rfl⟩, rfl⟩
    · intro point
      rw [List.nodup_iff_pairwise_ne, List.pairwise_map, List.pairwise_filter]
      refine (nodup_rel2 _).imp ?_
      intro a b hab ha hb heq
      simp only [beq_iff_eq] at ha hb
      exact hab (Prod.ext heq (ha.trans hb.symm))

/-- **C23.** A path is reported as moved on entry to a point iff some move of an overlapping path
reaches the point along an execution path on which no path overlapping the moved one is assigned in
between. -/
theorem C23_moved (fuel : Nat) (i : Input) (o : Output) (h : derive fuel i = some o) (path point : Nat) :
    (o.moveRefined point path).isSome = true ↔
      ∃ mv, Touches i mv path ∧ Reaches i mv point := by
  have := (derive_spec h).2.1 point path
  cases hm : o.moveRefined point path with
  | none => simpa using this.1 hm
  | some k =>
    simp only [Option.isSome_some, true_iff]
    exact ⟨k, (((derive_spec h).1 point path k).1 hm).1⟩

/-- **C23 (live moves).** The moves listed as live on entry to a point are exactly those that reach it,
each once. -/
theorem C23_live (fuel : Nat) (i : Input) (o : Output) (h : derive fuel i = some o) (point : Nat) :
    (∀ mv, mv ∈ o.moveLiveAt point ↔ Reaches i mv point) ∧ (o.moveLiveAt point).Nodup :=
  ⟨(derive_spec h).2.2.2.2.2.2.2.2.1 point, (derive_spec h).2.2.2.2.2.2.2.2.2 point⟩

/-- **C24.** A path is reported as maybe uninitialised on entry to a point iff some predecessor leaves
it or one of its descendants maybe uninitialised. -/
theorem C24_uninitialised (fuel : Nat) (i : Input) (o : Output) (h : derive fuel i = some o) (path point : Nat) :
    o.uninitEntry point path = true ↔ MaybeUninit i path point :=
  (derive_spec h).2.2.1 point path

/-- **C25.** Read is refined iff a live mutable borrow overlaps the path; write and own are refined iff
any live borrow overlaps it. -/
theorem C25_refined (fuel : Nat) (i : Input) (o : Output) (h : derive fuel i = some o) (path point : Nat) :
    ((o.loanReadRefined point path).isSome = true ↔
      ∃ l, LiveOverlap i l path point ∧ i.isMutLoan l = true) ∧
    ((o.loanWriteRefined point path).isSome = true ↔ ∃ l, LiveOverlap i l path point) ∧
    ((o.loanDropRefined point path).isSome = true ↔ ∃ l, LiveOverlap i l path point) := by
  have hw : (o.loanWriteRefined point path).isSome = true ↔ ∃ l, LiveOverlap i l path point := by
    have := (derive_spec h).2.2.2.2.2.2.1 point path
    cases hm : o.loanWriteRefined point path with
    | none => simpa using this.1 hm
    | some k =>
      simp only [Option.isSome_some, true_iff]
      exact ⟨k, (((derive_spec h).2.2.2.2.2.1 point path k).1 hm).1⟩
  refine ⟨?_, hw, ?_⟩
  · have := (derive_spec h).2.2.2.2.1 point path
    cases hm : o.loanReadRefined point path with
    | none => simpa using this.1 hm
    | some k =>
      simp only [Option.isSome_some, true_iff]
      exact ⟨k, (((derive_spec h).2.2.2.1 point path k).1 hm).1⟩
  · rw [(derive_spec h).2.2.2.2.2.2.2.1]; exact hw

/-- **C25 (consequences).** Whenever read is refined so are write and own; a path that no live borrow
overlaps loses nothing. -/
theorem C25_order (fuel : Nat) (i : Input) (o : Output) (h : derive fuel i = some o) (path point : Nat) :
    ((o.loanReadRefined point path).isSome = true →
      (o.loanWriteRefined point path).isSome = true ∧ (o.loanDropRefined point path).isSome = true) ∧
    ((∀ l, ¬ LiveOverlap i l path point) → o.loanReadRefined point path = none ∧
      o.loanWriteRefined point path = none ∧ o.loanDropRefined point path = none) := by
  obtain ⟨h1, h2, h3⟩ := C25_refined fuel i o h path point
  constructor
  · intro hr
    obtain ⟨l, hl, -⟩ := h1.1 hr
    exact ⟨h2.2 ⟨l, hl⟩, h3.2 ⟨l, hl⟩⟩
  · intro hno
    refine ⟨?_, ?_, ?_⟩
    · rw [← Option.not_isSome_iff_eq_none, h1]; rintro ⟨l, hl, -⟩; exact hno l hl
    · rw [← Option.not_isSome_iff_eq_none, h2]; rintro ⟨l, hl⟩; exact hno l hl
    · rw [← Option.not_isSome_iff_eq_none, h3]; rintro ⟨l, hl⟩; exact hno l hl

/-- **C26.** The key shown is that of a real reason: the last of all moves that reach the point (all live
borrows) overlapping the path. A key is shown whenever there is one, by C23 and C25. -/
theorem C26_key (fuel : Nat) (i : Input) (o : Output) (h : derive fuel i = some o) (path point k : Nat) :
    (o.moveRefined point path = some k ↔
      IsMax (fun mv => Touches i mv path ∧ Reaches i mv point) k) ∧
    (o.loanReadRefined point path = some k ↔
      IsMax (fun l => LiveOverlap i l path point ∧ i.isMutLoan l = true) k) ∧
    (o.loanWriteRefined point path = some k ↔ IsMax (fun l => LiveOverlap i l path point) k) ∧
    (o.loanDropRefined point path = some k ↔ IsMax (fun l => LiveOverlap i l path point) k) := by
  obtain ⟨h1, -, -, h2, -, h3, -, h4, -⟩ := derive_spec h
  exact ⟨h1 point path k, h2 point path k, h3 point path k, by rw [h4]; exact h3 point path k⟩

/-- The same facts, listed in another order or more than once. -/
structure SameFacts (i j : Input) : Prop where
  cfgEdge : ∀ x, x ∈ i.cfgEdge ↔ x ∈ j.cfgEdge
  uninitExit : ∀ x, x ∈ i.uninitExit ↔ x ∈ j.uninitExit
  childPath : ∀ x, x ∈ i.childPath ↔ x ∈ j.childPath
  moves : i.moves = j.moves
  interior : ∀ p x, x ∈ i.interior p ↔ x ∈ j.interior p
  parents : ∀ p x, x ∈ i.parents p ↔ x ∈ j.parents p
  assigned : ∀ x, x ∈ i.assigned ↔ x ∈ j.assigned
  conflict : i.conflict = j.conflict
  issued : ∀ x, x ∈ i.issued ↔ x ∈ j.issued
  borrowed : i.borrowed = j.borrowed
  isMutLoan : i.isMutLoan = j.isMutLoan
  loanLive : ∀ x, x ∈ i.loanLive ↔ x ∈ j.loanLive
  paths : ∀ x, x ∈ i.paths ↔ x ∈ j.paths

theorem walk_congr {e₁ e₂ : List (Nat × Nat)} (h : ∀ x, x ∈ e₁ ↔ x ∈ e₂) (l : List Nat) :
    Walk e₁ l ↔ Walk e₂ l := by
  induction l with
  | nil => exact Iff.rfl
  | cons a l ih =>
    cases l with
    | nil => exact Iff.rfl
    | cons b l => simp only [Walk, h, ih]

theorem isMax_congr {P Q : Nat → Prop} (h : ∀ k, P k ↔ Q k) (k : Nat) : IsMax P k ↔ IsMax Q k := by
  unfold IsMax; simp only [h]

/-- **C26 (order).** The reasons shown do not depend on the order in which the facts were produced. -/
theorem C26_order (f₁ f₂ : Nat) (i j : Input) (o₁ o₂ : Output) (h₁ : derive f₁ i = some o₁)
    (h₂ : derive f₂ j = some o₂) (h : SameFacts i j) (point path : Nat) :
    o₁.moveRefined point path = o₂.moveRefined point path ∧
    o₁.loanReadRefined point path = o₂.loanReadRefined point path ∧
    o₁.loanWriteRefined point path = o₂.loanWriteRefined point path ∧
    o₁.loanDropRefined point path = o₂.loanDropRefined point path ∧
    o₁.uninitEntry point path = o₂.uninitEntry point path := by
  have hA : ∀ p q, AssignedAt i p q ↔ AssignedAt j p q := by
    intro p q; simp only [AssignedAt, h.assigned, h.conflict]
  have hR : ∀ mv, Reaches i mv point ↔ Reaches j mv point := by
    intro mv; simp only [Reaches, h.moves, hA, walk_congr h.cfgEdge]
  have hT : ∀ mv, Touches i mv path ↔ Touches j mv path := by
    intro mv; simp only [Touches, h.moves, h.interior, h.parents]
  have hL : ∀ l, LiveOverlap i l path point ↔ LiveOverlap j l path point := by
    intro l; simp only [LiveOverlap, h.issued, h.loanLive, h.paths, h.conflict, h.borrowed]
  have ext : ∀ {a b : Option Nat} {P Q : Nat → Prop}, (∀ k, a = some k ↔ IsMax P k) →
      (∀ k, b = some k ↔ IsMax Q k) → (∀ k, P k ↔ Q k) → a = b := by
    intro a b P Q h1 h2 h3
    apply Option.ext
    intro k
    rw [h1, h2, isMax_congr h3]
  have a := fun k => C26_key f₁ i o₁ h₁ path point k
  have b := fun k => C26_key f₂ j o₂ h₂ path point k
  refine ⟨ext (fun k => (a k).1) (fun k => (b k).1) (fun k => by rw [hT, hR]),
    ext (fun k => (a k).2.1) (fun k => (b k).2.1) (fun k => by rw [hL, h.isMutLoan]),
    ext (fun k => (a k).2.2.1) (fun k => (b k).2.2.1) hL,
    ext (fun k => (a k).2.2.2) (fun k => (b k).2.2.2) hL, ?_⟩
  have hAnc : ∀ d p, Ancestor i d p ↔ Ancestor j d p := by
    intro d p
    constructor
    · intro x; induction x with
      | self => exact .self
      | up _ hc ih => exact .up ih ((h.childPath _).1 hc)
    · intro x; induction x with
      | self => exact .self
      | up _ hc ih => exact .up ih ((h.childPath _).2 hc)
  rw [Bool.eq_iff_iff, C24_uninitialised f₁ i o₁ h₁, C24_uninitialised f₂ j o₂ h₂]
  simp only [MaybeUninit, h.cfgEdge, h.uninitExit, hAnc]

/-- **C22 (from the program's facts).** What is shown for a path at a point, in terms of execution paths
and borrows only. -/
theorem C22_at_point (fuel : Nat) (i : Input) (o : Output) (h : derive fuel i = some o) (path point : Nat) :
    let p := (dataAtPoint i o path point).permissions
    (p.read = true ↔ (point, i.varOf path) ∈ i.varLive ∧
      (¬ ∃ mv, Touches i mv path ∧ Reaches i mv point) ∧ ¬ MaybeUninit i path point ∧
      ¬ ∃ l, LiveOverlap i l path point ∧ i.isMutLoan l = true) ∧
    (p.write = true ↔ p.read = true ∧ i.writeEnabled path = true ∧ ¬ ∃ l, LiveOverlap i l path point) ∧
    (p.drop = true ↔ p.read = true ∧ i.dropEnabled path = true ∧ ¬ ∃ l, LiveOverlap i l path point) := by
  obtain ⟨h1, h2, h3⟩ := Permissions.C22_permissions (dataAtPoint i o path point)
  obtain ⟨d1, d2, d3, d4, d5, d6, d7, d8, -⟩ := derive_spec h
  have hlive : isLiveAt i path point = true ↔ (point, i.varOf path) ∈ i.varLive := by
    unfold isLiveAt
    simp only [List.any_eq_true, beq_iff_eq]
    constructor
    · rintro ⟨x, hx, rfl⟩; exact hx
    · intro hx; exact ⟨_, hx, rfl⟩
  refine ⟨?_, ?_, ?_⟩
  · rw [h1]
    show isLiveAt i path point = true ∧ o.moveRefined point path = none ∧
      o.uninitEntry point path = false ∧ o.loanReadRefined point path = none ↔ _
    rw [hlive, d2, d5, ← Bool.not_eq_true, d3]
  · rw [h2]
    show _ ∧ i.writeEnabled path = true ∧ o.loanWriteRefined point path = none ↔ _
    rw [d7]
  · rw [h3]
    show _ ∧ i.dropEnabled path = true ∧ o.loanDropRefined point path = none ↔ _
    rw [d8, d7]

/-- **C22 (type facts).** What depends on the type only is reported unchanged, and is the same at all
points. -/
theorem C22_type_facts (i : Input) (o : Output) (path point : Nat) :
    let d := dataAtPoint i o path point
    d.typeCopyable = i.copyable path ∧ d.typeWriteable = i.writeEnabled path ∧
      d.typeDroppable = i.dropEnabled path := ⟨rfl, rfl, rfl⟩

/-! ## Non-vacuity -/

/-- Four points in a row and a loop 2 → 1.  Path 1 is a part of path 0; path 1 is moved at point 0 and
path 0 assigned at point 2; path 5 is borrowed mutably by loan 0 and shared by loan 1. -/
def sample : Input :=
  { cfgEdge := [(0, 1), (1, 2), (2, 1), (2, 3)]
    uninitExit := [(0, 1)]
    childPath := [(1, 0)]
    moves := [(1, 0)]
    interior := fun p => [p]
    parents := fun p => if p = 1 then [0] else []
    assigned := [(0, 2)]
    conflict := fun a b => a == b || (a ≤ 1 && b ≤ 1)
    issued := [0, 1]
    borrowed := fun _ => 5
    isMutLoan := fun l => l == 0
    loanLive := [(0, 1), (1, 1), (1, 2)]
    paths := [0, 1, 5]
    varLive := [(2, 5)]
    varOf := id
    writeEnabled := fun _ => true
    dropEnabled := fun _ => true
    copyable := fun _ => false }

example : Reaches sample 0 2 ∧ ¬ (∃ mv, Touches sample mv 5 ∧ Reaches sample mv 2) := by
  refine ⟨⟨1, 0, [1], rfl, ⟨by decide, by decide, trivial⟩, ?_⟩, ?_⟩
  · intro q hq
    simp only [List.mem_singleton] at hq
    subst hq
    rintro ⟨o, h1, -⟩
    simp [sample] at h1
  · rintro ⟨mv, ⟨p, s, h1, h2⟩, -⟩
    simp only [sample] at h1 h2
    have : mv = 0 := by
      cases mv with
      | zero => rfl
      | succ n => simp at h1
    subst this
    simp at h1
    obtain ⟨rfl, rfl⟩ := h1
    simp at h2

example : (derive 10 sample).map (fun o => ((List.range 4).map (fun pt => (o.moveRefined pt 0, o.uninitEntry pt 0)),
      (List.range 4).map (fun pt => (o.loanReadRefined pt 5, o.loanWriteRefined pt 5)),
      (dataAtPoint sample o 5 2).permissions)) =
    some ([(none, false), (some 0, true), (some 0, false), (none, false)],
      [(none, none), (some 0, some 1), (none, some 1), (none, none)], ⟨true, false, false⟩) := by
  decide +kernel

end Verif.Facts
