import Verif.Cfg.Spec
/-!
# Properties of the graph helpers
-/
namespace Verif.Cfg

open Verif.Graph

/-! ## C37 -/

theorem mem_exitPostDominators {succ : Nat → List Nat} {n : Nat}
    (hsucc : ∀ a, a < n → ∀ b ∈ succ a, b < n) {exit node d : Nat} (hn : node < n) :
    d ∈ exitPostDominators succ n exit node ↔
      d < n ∧ Reach succ node exit ∧ ∀ l, Path succ node exit l → d ∈ l := by
  unfold exitPostDominators
  split
  · rename_i h
    rw [mem_dfs hsucc hn] at h
    rw [List.mem_filter, List.mem_range, through_iff hsucc hn]
    simp [h]
  · rename_i h
    rw [mem_dfs hsucc hn] at h
    simp [h]

theorem mem_foldl_filter (f : Nat → Nat → Bool) (exits : List Nat) (row : List Nat) (d : Nat) :
    d ∈ exits.foldl (fun row x => row.filter (f x)) row ↔ d ∈ row ∧ ∀ x ∈ exits, f x d = true := by
  induction exits generalizing row with
  | nil => simp
  | cons x r ih =>
    simp only [List.foldl_cons, ih, List.mem_filter, List.mem_cons]
    grind

/-- For every graph, any number of exits and any two blocks: `d` is said to post-dominate `node` iff every
exit can be reached from `node` and every path to every exit passes `d`. -/
theorem C37_postdominates {succ : Nat → List Nat} {n : Nat} (hsucc : ∀ a, a < n → ∀ b ∈ succ a, b < n)
    (exits : List Nat) {node d : Nat} (hn : node < n) (hd : d < n) :
    isPostdominatedBy succ n exits node d = true ↔ PostDominates succ exits node d := by
  unfold isPostdominatedBy allPostDominators
  rw [decide_eq_true_eq,
    mem_foldl_filter (fun x d => decide (d ∈ exitPostDominators succ n x node))]
  simp only [List.mem_range, decide_eq_true_eq, mem_exitPostDominators hsucc hn, PostDominates]
  grind

/-- Diamond with a loop on one side: 0 → 1, 2; 1 → 1, 3; 2 → 3. -/
def diamond : Nat → List Nat
  | 0 => [1, 2]
  | 1 => [1, 3]
  | 2 => [3]
  | _ => []

example : ((List.range 4).map fun d => isPostdominatedBy diamond 4 [3] 0 d) = [true, false, false, true] := by
  decide

/-- The exits taken are exactly the blocks ending in `return`. -/
theorem C37_returns (b : Body) (n : Nat) : n ∈ b.returns ↔ ∃ d, b[n]? = some d ∧ d.term = .ret := by
  simp only [Body.returns, Body.term, List.mem_filter, List.mem_range]
  constructor
  · rintro ⟨h, h2⟩
    rw [List.getElem?_eq_getElem h] at h2
    exact ⟨b[n], List.getElem?_eq_getElem h, by simpa using h2⟩
  · rintro ⟨d, hd, ht⟩
    exact ⟨(List.getElem?_eq_some_iff.1 hd).1, by rw [hd]; simp [ht]⟩

/-- In a body without returns (an endless loop) every block post-dominates every block. -/
theorem C37_no_exits {succ : Nat → List Nat} {n : Nat} {node d : Nat} (hd : d < n) :
    isPostdominatedBy succ n [] node d = true := by
  simp [isPostdominatedBy, allPostDominators, hd]

/-- With two exits, a block that cannot reach one of them is post-dominated by nothing, not even by
itself. -/
theorem C37_partial_reach : ∃ (succ : Nat → List Nat) (n node : Nat), node < n ∧
    ∀ d, isPostdominatedBy succ n [1, 2] node d = false := by
  refine ⟨fun k => if k = 0 then [1, 2] else [], 3, 1, by decide, ?_⟩
  intro d
  by_cases hd : d < 3
  · have : d = 0 ∨ d = 1 ∨ d = 2 := by omega
    rcases this with rfl | rfl | rfl <;> decide
  · unfold isPostdominatedBy allPostDominators
    rw [decide_eq_false_iff_not, mem_foldl_filter (fun x d => decide (d ∈ exitPostDominators _ 3 x 1))]
    simp [hd]

/-! ## C38 -/

theorem keep_iff {b : Body} {n : Nat} : b.keep n = true ↔ Kept b n := by
  unfold Body.keep Kept
  cases h : b[n]? with
  | none => simp
  | some d => simp

theorem mem_rawSucc {b : Body} {a t : Nat} : t ∈ b.rawSucc a ↔ Edge b a t := by
  unfold Body.rawSucc Body.term Edge
  cases h : b[a]? with
  | none => simp [Term.targets]
  | some d => simp

theorem isImaginary_iff {t : Term} {x : Nat} : isImaginaryTarget t x = true ↔ ∃ r, t = .falseEdge r x := by
  cases t <;> simp [isImaginaryTarget]

/-- The edges of the cleaned graph, exactly: the original edges into kept blocks, except into a block whose
own terminator is a false edge to itself. -/
theorem C38_edges (b : Body) (a t : Nat) : t ∈ b.succ a ↔
    Edge b a t ∧ Kept b t ∧ ¬ ∃ r, b.term t = .falseEdge r t := by
  simp only [Body.succ, List.mem_filter, mem_rawSucc, Bool.and_eq_true, keep_iff, Bool.not_eq_true']
  rw [← Bool.not_eq_true, isImaginary_iff]

/-- In a valid body without false edges the cleaned graph has exactly the original edges between kept
blocks. -/
theorem C38_kept_partial {b : Body} (hv : Valid b) (hf : ∀ n r i, b.term n ≠ .falseEdge r i) (a t : Nat) :
    t ∈ b.succ a ↔ Edge b a t ∧ Kept b a ∧ Kept b t ∧ ¬ ImaginaryEdge b a t := by
  rw [C38_edges]
  constructor
  · rintro ⟨h1, h2, _⟩
    have hka : Kept b a := by
      obtain ⟨d, hd, ht⟩ := h1
      refine ⟨d, hd, ?_, ?_⟩
      · cases hc : d.cleanup with
        | false => rfl
        | true =>
          obtain ⟨e, he, hec, _⟩ := h2
          have := hv.cleanup a d t e hd hc he ⟨d, hd, ht⟩
          rw [hec] at this
          exact absurd this (by simp)
      · intro hu; rw [hu] at ht; simp [Term.targets] at ht
    refine ⟨h1, hka, h2, ?_⟩
    rintro ⟨d, r, hd, ht, _⟩
    exact hf a r t (by simp [Body.term, hd, ht])
  · rintro ⟨h1, _, h2, _⟩
    exact ⟨h1, h2, fun ⟨r, hr⟩ => hf t r t hr⟩

/-- The property is false as soon as there are false edges: the test looks at the target's terminator
instead of the source's, so an imaginary edge into a kept block is kept. -/
theorem C38_imaginary_kept {b : Body} {a t : Nat} (h : ImaginaryEdge b a t) (ht : Kept b t)
    (hself : ¬ ∃ r, b.term t = .falseEdge r t) : t ∈ b.succ a := by
  obtain ⟨d, r, hd, hterm, _⟩ := h
  exact (C38_edges b a t).2 ⟨⟨d, hd, by rw [hterm]; simp [Term.targets]⟩, ht, hself⟩

/-- A match with a guard: block 0 has a false edge to the guarded arm 1 and an imaginary one to the next
arm 2. -/
def falseEdgeBody : Body :=
  [⟨1, .falseEdge 1 2, false⟩, ⟨1, .goto 3, false⟩, ⟨1, .goto 3, false⟩, ⟨0, .ret, false⟩]

theorem C38_imaginary_witness : ImaginaryEdge falseEdgeBody 0 2 ∧ 2 ∈ falseEdgeBody.succ 0 :=
  ⟨⟨⟨1, .falseEdge 1 2, false⟩, 1, rfl, rfl, by decide⟩, by decide⟩

/-- … with the consequence that the real target does not post-dominate the block, although all real paths
pass it. -/
theorem C38_imaginary_postdominance :
    isPostdominatedBy falseEdgeBody.succ 4 falseEdgeBody.returns 0 1 = false := by decide

/-- The predecessors of a block are the kept blocks with an edge to it. -/
theorem C38_pred (b : Body) (p n : Nat) : p ∈ b.pred n ↔ Edge b p n ∧ Kept b p := by
  simp only [Body.pred, List.mem_filter, List.mem_range, Bool.and_eq_true, decide_eq_true_eq, mem_rawSucc, keep_iff]
  constructor
  · exact fun h => h.2
  · intro h
    obtain ⟨d, hd, _⟩ := id h.1
    exact ⟨(List.getElem?_eq_some_iff.1 hd).1, h⟩

/-- Predecessors and successors agree between kept blocks (but for the self false edge). -/
theorem C38_predecessors (b : Body) {p n : Nat} (hp : Kept b p) (hn : Kept b n)
    (hself : ¬ ∃ r, b.term n = .falseEdge r n) : p ∈ b.pred n ↔ n ∈ b.succ p := by
  rw [C38_edges]
  simp only [Body.pred, List.mem_filter, List.mem_range, Bool.and_eq_true, decide_eq_true_eq, mem_rawSucc,
    keep_iff, hp, hn, hself, not_false_eq_true, and_true]
  constructor
  · exact fun h => h.2
  · intro h
    obtain ⟨d, hd, _⟩ := id h
    exact ⟨(List.getElem?_eq_some_iff.1 hd).1, h⟩

/-- Moving to the next location stays in the block until the terminator and then follows the unique edge
of the cleaned graph, if there is just one. -/
theorem C38_location {b : Body} {l : Loc} {d : Block} (hd : b[l.block]? = some d) (m : Loc) :
    b.locationSuccessor l = some m ↔
      (l.idx < d.stmts ∧ m = ⟨l.block, l.idx + 1⟩) ∨
      (d.stmts ≤ l.idx ∧ m.idx = 0 ∧ b.succ l.block = [m.block]) := by
  obtain ⟨mb, mi⟩ := m
  unfold Body.locationSuccessor
  rw [hd]
  dsimp only
  split
  · rename_i h
    simp only [Option.some.injEq, Loc.mk.injEq]
    constructor
    · rintro ⟨h1, h2⟩; exact .inl ⟨h, h1.symm, h2.symm⟩
    · rintro (⟨_, h1, h2⟩ | ⟨h1, _⟩)
      · exact ⟨h1.symm, h2.symm⟩
      · omega
  · rename_i h
    split
    · rename_i t ht
      simp only [Option.some.injEq, Loc.mk.injEq, ht, List.cons.injEq, and_true]
      constructor
      · rintro ⟨h1, h2⟩; exact .inr ⟨by omega, h2.symm, h1⟩
      · rintro (⟨h1, _⟩ | ⟨_, h2, h1⟩)
        · omega
        · exact ⟨h1, h2.symm⟩
    · rename_i hne
      constructor
      · intro h; exact absurd h (by simp)
      · rintro (⟨h1, _⟩ | ⟨_, _, h1⟩)
        · omega
        · exact absurd h1 (hne mb)

/-! ## C39 -/

theorem succ_lt {b : Body} (hv : Valid b) : ∀ a, a < b.length → ∀ t ∈ b.succ a, t < b.length :=
  fun a _ t ht => hv.targets a t ((C38_edges b a t).1 ht).1

theorem dominates_iff {b : Body} (hv : Valid b) {d x : Nat} :
    dominates b.succ b.length d x = true ↔ Dominates b.succ d x := by
  unfold dominates Dominates
  rw [Bool.and_eq_true, decide_eq_true_eq, mem_dfs (succ_lt hv) hv.nonempty,
    through_iff (succ_lt hv) hv.nonempty]

def vals (m : List (Nat × List Nat)) : List Loc := m.flatMap fun e => e.2.map (fun i => (⟨e.1, i⟩ : Loc))

theorem pushIdx_vals (m : List (Nat × List Nat)) (bb i : Nat) :
    (vals (pushIdx m bb i)).Perm (⟨bb, i⟩ :: vals m) := by
  induction m with
  | nil => simp [pushIdx, vals]
  | cons e r ih =>
    obtain ⟨k, v⟩ := e
    simp only [pushIdx]
    split
    · rename_i h
      subst h
      simp only [vals, List.flatMap_cons, List.map_append, List.map_cons, List.map_nil, List.append_assoc,
        List.cons_append, List.nil_append]
      exact List.perm_middle
    · simp only [vals, List.flatMap_cons]
      refine (List.Perm.append_left _ ih).trans ?_
      exact List.perm_middle

theorem pushIdx_keys (m : List (Nat × List Nat)) (bb i : Nat) :
    ((pushIdx m bb i).map (·.1) = m.map (·.1) ∧ bb ∈ m.map (·.1)) ∨
    ((pushIdx m bb i).map (·.1) = m.map (·.1) ++ [bb] ∧ bb ∉ m.map (·.1)) := by
  induction m with
  | nil => simp [pushIdx]
  | cons e r ih =>
    obtain ⟨k, v⟩ := e
    simp only [pushIdx]
    split
    · rename_i h; subst h; simp
    · rename_i h
      rcases ih with ⟨h1, h2⟩ | ⟨h1, h2⟩
      · exact .inl ⟨by simp only [List.map_cons, h1], by simp only [List.map_cons, List.mem_cons, h2, or_true]⟩
      · refine .inr ⟨by simp only [List.map_cons, h1, List.cons_append], ?_⟩
        simp only [List.map_cons, List.mem_cons, not_or]
        exact ⟨fun hc => h hc.symm, h2⟩

theorem pushIdx_ne (m : List (Nat × List Nat)) (bb i : Nat) (h : ∀ e ∈ m, e.2 ≠ []) :
    ∀ e ∈ pushIdx m bb i, e.2 ≠ [] := by
  induction m with
  | nil => simp [pushIdx]
  | cons e r ih =>
    obtain ⟨k, v⟩ := e
    simp only [pushIdx]
    split
    · intro e he
      rcases List.mem_cons.1 he with rfl | he
      · simp
      · exact h e (by simp [he])
    · intro e he
      rcases List.mem_cons.1 he with rfl | he
      · exact h _ (by simp)
      · exact ih (fun e he => h e (by simp [he])) e he

theorem insertIdx_perm (x : Nat) (l : List Nat) : (insertIdx x l).Perm (x :: l) := by
  induction l with
  | nil => exact .refl _
  | cons y r ih =>
    simp only [insertIdx]
    split
    · exact .refl _
    · exact (ih.cons y).trans (.swap x y r)

theorem sortIdx_perm (l : List Nat) : (sortIdx l).Perm l := by
  induction l with
  | nil => exact .refl _
  | cons x r ih => exact (insertIdx_perm x _).trans (ih.cons x)

theorem insertIdx_sorted (x : Nat) {l : List Nat} (h : l.Pairwise (· ≤ ·)) :
    (insertIdx x l).Pairwise (· ≤ ·) := by
  induction l with
  | nil => simp [insertIdx]
  | cons y r ih =>
    simp only [insertIdx]
    rw [List.pairwise_cons] at h
    split
    · rename_i hxy
      rw [List.pairwise_cons]
      refine ⟨?_, List.pairwise_cons.2 h⟩
      intro a ha
      rcases List.mem_cons.1 ha with rfl | ha
      · exact hxy
      · exact Nat.le_trans hxy (h.1 a ha)
    · rw [List.pairwise_cons]
      refine ⟨?_, ih h.2⟩
      intro a ha
      rcases List.mem_cons.1 ((insertIdx_perm x r).mem_iff.1 ha) with rfl | ha
      · omega
      · exact h.1 a ha

theorem sortIdx_sorted (l : List Nat) : (sortIdx l).Pairwise (· ≤ ·) := by
  induction l with
  | nil => simp [sortIdx]
  | cons x r ih => exact insertIdx_sorted x ih

/-- What the fold keeps. -/
def realB (b : Body) (l : Loc) : Bool := !b.isFalseLocation l && !b.isBlockUnreachable l.block

theorem fold_spec (b : Body) (locs : List Loc) (m : List (Nat × List Nat)) (hk : (m.map (·.1)).Nodup)
    (hne : ∀ e ∈ m, e.2 ≠ []) :
    let r := (locs.filter (fun l => !b.isFalseLocation l)).foldl
      (fun acc l => if b.isBlockUnreachable l.block then acc else pushIdx acc l.block l.idx) m
    (vals r).Perm (locs.filter (realB b) ++ vals m) ∧ (r.map (·.1)).Nodup ∧ (∀ e ∈ r, e.2 ≠ []) := by
  induction locs generalizing m with
  | nil => exact ⟨.refl _, hk, hne⟩
  | cons l r ih =>
    by_cases h1 : b.isFalseLocation l = true
    · have : realB b l = false := by simp [realB, h1]
      simp only [List.filter_cons, h1, this, Bool.not_true, Bool.false_eq_true, if_false]
      exact ih m hk hne
    · simp only [Bool.not_eq_true] at h1
      by_cases h2 : b.isBlockUnreachable l.block = true
      · have : realB b l = false := by simp [realB, h2]
        simp only [List.filter_cons, h1, this, Bool.not_false, if_true, List.foldl_cons, h2,
          Bool.false_eq_true, if_false]
        exact ih m hk hne
      · simp only [Bool.not_eq_true] at h2
        have : realB b l = true := by simp [realB, h1, h2]
        simp only [List.filter_cons, h1, this, Bool.not_false, if_true, List.foldl_cons, h2,
          Bool.false_eq_true, if_false]
        obtain ⟨h3, h4, h5⟩ := ih (pushIdx m l.block l.idx) (by
          rcases pushIdx_keys m l.block l.idx with ⟨he, _⟩ | ⟨he, hn⟩
          · rw [he]; exact hk
          · rw [he, List.nodup_append]
            exact ⟨hk, by simp, by
              intro a ha c hc hac
              rw [List.mem_singleton] at hc
              exact hn (hc ▸ hac ▸ ha)⟩) (pushIdx_ne m _ _ hne)
        refine ⟨h3.trans ?_, h4, h5⟩
        refine (List.Perm.append_left _ (pushIdx_vals m l.block l.idx)).trans ?_
        exact List.perm_middle

theorem vals_sort (m : List (Nat × List Nat)) :
    (vals (m.map fun e => (e.1, sortIdx e.2))).Perm (vals m) := by
  induction m with
  | nil => exact .refl _
  | cons e r ih =>
    simp only [vals, List.map_cons, List.flatMap_cons]
    exact List.Perm.append ((sortIdx_perm e.2).map _) ih

theorem locationMap_spec (b : Body) (locs : List Loc) :
    (vals (b.locationMap locs)).Perm (locs.filter (realB b)) ∧ ((b.locationMap locs).map (·.1)).Nodup ∧
    (∀ e ∈ b.locationMap locs, e.2 ≠ [] ∧ e.2.Pairwise (· ≤ ·)) := by
  obtain ⟨h1, h2, h3⟩ := fold_spec b locs [] (by simp) (by simp)
  unfold Body.locationMap
  refine ⟨(vals_sort _).trans (by simpa [vals] using h1), by rw [List.map_map]; exact h2, ?_⟩
  intro e he
  obtain ⟨e', he', rfl⟩ := List.mem_map.1 he
  refine ⟨?_, sortIdx_sorted _⟩
  intro hc
  have := (sortIdx_perm e'.2).symm
  dsimp only at hc
  rw [hc] at this
  exact h3 e' he' (List.perm_nil.1 this)

theorem real_iff {b : Body} {l : Loc} (hl : l.block < b.length) : realB b l = true ↔ RealLoc b l := by
  unfold realB RealLoc Body.isFalseLocation Body.isBlockUnreachable Body.term
  rw [List.getElem?_eq_getElem hl]
  generalize b[l.block] = d
  obtain ⟨st, tm, cl⟩ := d
  simp only [Option.some.injEq]
  cases tm <;> simp

/-- Nothing is reported iff nothing was gathered. -/
theorem C39_none (b : Body) (locs : List Loc) : b.mirLocations locs = none ↔ locs = [] := by
  unfold Body.mirLocations
  cases locs <;> simp

/-- Gathering: the locations of the node, and if asked also those of every node below it. -/
theorem C39_gather (hirToMir : List (Nat × List Loc)) (parents : Nat → List Nat) (hir : Nat) (nested : Bool)
    (l : Loc) : l ∈ gather hirToMir parents hir nested ↔
      ∃ id ls, (id, ls) ∈ hirToMir ∧ l ∈ ls ∧ (id = hir ∨ (nested = true ∧ hir ∈ parents id)) := by
  cases nested
  · simp only [gather, Bool.false_eq_true, if_false, List.mem_flatMap, List.mem_filter, beq_iff_eq]
    constructor
    · rintro ⟨⟨id, ls⟩, ⟨h1, h2⟩, h3⟩; exact ⟨id, ls, h1, h3, .inl h2⟩
    · rintro ⟨id, ls, h1, h3, h2 | ⟨h2, _⟩⟩
      · exact ⟨⟨id, ls⟩, ⟨h1, h2⟩, h3⟩
      · exact absurd h2 (by simp)
  · simp only [gather, if_true, List.mem_append, List.mem_flatMap, List.mem_filter, beq_iff_eq,
      decide_eq_true_eq]
    constructor
    · rintro (⟨⟨id, ls⟩, ⟨h1, h2⟩, h3⟩ | ⟨⟨id, ls⟩, ⟨h1, h2⟩, h3⟩)
      · exact ⟨id, ls, h1, h3, .inl h2⟩
      · exact ⟨id, ls, h1, h3, .inr ⟨trivial, h2⟩⟩
    · rintro ⟨id, ls, h1, h3, h2 | ⟨_, h2⟩⟩
      · exact .inl ⟨⟨id, ls⟩, ⟨h1, h2⟩, h3⟩
      · exact .inr ⟨⟨id, ls⟩, ⟨h1, h2⟩, h3⟩

theorem values_eq (o : Ordered) : o.values = vals o.locations := rfl

/-- The locations listed are exactly the gathered ones that are real, each as often as gathered. -/
theorem C39_values {b : Body} {locs : List Loc} {o : Ordered} (h : b.mirLocations locs = some o)
    (hl : ∀ l ∈ locs, l.block < b.length) :
    (locs.Nodup → o.values.Nodup) ∧ ∀ l, l ∈ o.values ↔ l ∈ locs ∧ RealLoc b l := by
  unfold Body.mirLocations at h
  split at h
  · exact absurd h (by simp)
  · simp only [Option.some.injEq] at h
    subst h
    rw [values_eq]
    have hp := (locationMap_spec b locs).1
    refine ⟨fun hn => hp.nodup_iff.2 (hn.sublist List.filter_sublist), ?_⟩
    intro l
    rw [hp.mem_iff, List.mem_filter]
    constructor
    · rintro ⟨h1, h2⟩; exact ⟨h1, (real_iff (hl l h1)).1 h2⟩
    · rintro ⟨h1, h2⟩; exact ⟨h1, (real_iff (hl l h1)).2 h2⟩

theorem mem_blocks {m : List (Nat × List Nat)} (hne : ∀ e ∈ m, e.2 ≠ []) (x : Nat) :
    x ∈ m.map (·.1) ↔ ∃ l ∈ vals m, l.block = x := by
  simp only [List.mem_map, vals, List.mem_flatMap]
  constructor
  · rintro ⟨e, he, rfl⟩
    obtain ⟨i, v, hv⟩ := List.exists_cons_of_ne_nil (hne e he)
    exact ⟨⟨e.1, i⟩, ⟨e, he, i, by rw [hv]; simp, rfl⟩, rfl⟩
  · rintro ⟨l, ⟨e, he, i, hi, rfl⟩, rfl⟩
    exact ⟨e, he, rfl⟩

theorem get_spec {m : List (Nat × List Nat)} (hk : (m.map (·.1)).Nodup) {bb : Nat} {v : List Nat}
    (he : (bb, v) ∈ m) : (m.find? (fun e => e.1 == bb)).map (·.2) = some v := by
  induction m with
  | nil => simp at he
  | cons a r ih =>
    simp only [List.map_cons, List.nodup_cons] at hk
    rw [List.find?_cons]
    rcases List.mem_cons.1 he with h | h
    · subst h; simp
    · have : a.1 ≠ bb := by
        intro hc
        exact hk.1 (hc ▸ List.mem_map_of_mem (f := (·.1)) h)
      have hb : (a.1 == bb) = false := by simpa using this
      rw [hb]
      exact ih hk.2 h

theorem idx_mem_vals {m : List (Nat × List Nat)} (hk : (m.map (·.1)).Nodup) {bb : Nat} {v : List Nat}
    (he : (bb, v) ∈ m) (i : Nat) : (⟨bb, i⟩ : Loc) ∈ vals m ↔ i ∈ v := by
  simp only [vals, List.mem_flatMap, List.mem_map, Loc.mk.injEq]
  constructor
  · rintro ⟨⟨k, w⟩, hw, j, hj, h1, h2⟩
    dsimp only at h1 hj
    subst h1 h2
    have e1 := get_spec hk he
    have e2 := get_spec hk hw
    rw [e1] at e2
    simp only [Option.some.injEq] at e2
    rw [e2]; exact hj
  · intro hi
    exact ⟨(bb, v), he, i, hi, rfl, rfl⟩

/-- The reported entry dominates every block of the node, is itself a block of the node, and the entry
location is the first statement of the node in that block. -/
theorem C39_entry {b : Body} (hv : Valid b) {locs : List Loc} {o : Ordered}
    (h : b.mirLocations locs = some o) {e : Nat} (he : o.entryBlock = some e) :
    (∀ l ∈ o.values, Dominates b.succ e l.block) ∧
    ∃ i, o.entryLocation = some ⟨e, i⟩ ∧ ⟨e, i⟩ ∈ o.values ∧ ∀ j, ⟨e, j⟩ ∈ o.values → i ≤ j := by
  unfold Body.mirLocations at h
  split at h
  · exact absurd h (by simp)
  · simp only [Option.some.injEq] at h
    subst h
    rw [values_eq]
    obtain ⟨_, hk, hne⟩ := locationMap_spec b locs
    dsimp only at he ⊢
    have hall := List.find?_some he
    have hmem := List.mem_of_find?_eq_some he
    rw [List.all_eq_true] at hall
    refine ⟨?_, ?_⟩
    · intro l hl
      exact (dominates_iff hv).1 (hall _ ((mem_blocks (fun e he => (hne e he).1) _).2 ⟨l, hl, rfl⟩))
    · obtain ⟨⟨bb, v⟩, hbv, rfl⟩ := List.mem_map.1 hmem
      obtain ⟨i, r, hir⟩ := List.exists_cons_of_ne_nil (hne _ hbv).1
      dsimp only at hir
      subst hir
      refine ⟨i, ?_, (idx_mem_vals hk hbv i).2 (by simp), ?_⟩
      · simp only [Ordered.entryLocation, he, Ordered.get, get_spec hk hbv, List.head?_cons, Option.map_some]
      · intro j hj
        have hj := (idx_mem_vals hk hbv j).1 hj
        have hs := (hne _ hbv).2
        rw [List.pairwise_cons] at hs
        rcases List.mem_cons.1 hj with rfl | hj
        · exact Nat.le_refl _
        · exact hs.1 j hj

/-- An exit block without statements of the node would stand for its start; by `C39_exit` this does not occur for
the locations of a node. -/
theorem C39_exit_default {o : Ordered} {e : Nat} (he : o.exitBlock = some e) (hn : ∀ v, (e, v) ∉ o.locations) :
    o.exitLocation = some ⟨e, 0⟩ := by
  have hg : o.get e = none := by
    unfold Ordered.get
    rw [Option.map_eq_none_iff, List.find?_eq_none]
    rintro ⟨k, v⟩ hx
    simp only [beq_iff_eq]
    rintro rfl
    exact hn v hx
  unfold Ordered.exitLocation
  rw [he]
  dsimp only
  rw [hg]

/-- The reported exit post-dominates every block of the node, is itself a block of the node, and the exit
location is the last statement of the node in that block. -/
theorem C39_exit {b : Body} (hv : Valid b) {locs : List Loc} (hl : ∀ l ∈ locs, l.block < b.length)
    {o : Ordered} (h : b.mirLocations locs = some o) {e : Nat} (he : o.exitBlock = some e) :
    (∀ l ∈ o.values, PostDominates b.succ b.returns l.block e) ∧
    ∃ i, o.exitLocation = some ⟨e, i⟩ ∧ ⟨e, i⟩ ∈ o.values ∧ ∀ j, ⟨e, j⟩ ∈ o.values → j ≤ i := by
  have hval := (C39_values h hl).2
  unfold Body.mirLocations at h
  split at h
  · exact absurd h (by simp)
  · simp only [Option.some.injEq] at h
    subst h
    rw [values_eq] at hval ⊢
    obtain ⟨_, hk, hne⟩ := locationMap_spec b locs
    dsimp only at he hval ⊢
    have hall := List.find?_some he
    have hmem := List.mem_of_find?_eq_some he
    rw [List.all_eq_true] at hall
    have hlt : ∀ x ∈ (b.locationMap locs).map (·.1), x < b.length := by
      intro x hx
      obtain ⟨l, hl2, rfl⟩ := (mem_blocks (fun e he => (hne e he).1) _).1 hx
      exact hl l ((hval l).1 hl2).1
    refine ⟨?_, ?_⟩
    · intro l hl2
      have hx := (mem_blocks (fun e he => (hne e he).1) _).2 ⟨l, hl2, rfl⟩
      exact (C37_postdominates (succ_lt hv) _ (hlt _ hx) (hlt _ hmem)).1 (hall _ hx)
    · obtain ⟨⟨bb, v⟩, hbv, rfl⟩ := List.mem_map.1 hmem
      dsimp only at he
      have hvne := (hne _ hbv).1
      have hs := (hne _ hbv).2
      dsimp only at hvne hs
      rcases List.eq_nil_or_concat v with hnil | ⟨r, i, hri⟩
      · exact absurd hnil hvne
      · subst hri
        refine ⟨i, ?_, (idx_mem_vals hk hbv i).2 (by simp), ?_⟩
        · simp only [Ordered.exitLocation, he, Ordered.get, get_spec hk hbv]
          simp
        · intro j hj
          have hj := (idx_mem_vals hk hbv j).1 hj
          simp only [List.concat_eq_append] at hs hj
          rw [List.pairwise_append] at hs
          rcases List.mem_append.1 hj with hj | hj
          · exact hs.2.2 j hj i (by simp)
          · simp only [List.mem_singleton] at hj; omega

/-- An entry is reported iff some block of the node dominates all of them; an exit iff some block
post-dominates all of them. -/
theorem C39_found {b : Body} (hv : Valid b) {locs : List Loc} (hl : ∀ l ∈ locs, l.block < b.length)
    {o : Ordered} (h : b.mirLocations locs = some o) :
    ((∃ e, o.entryBlock = some e) ↔ ∃ k ∈ o.values, ∀ l ∈ o.values, Dominates b.succ k.block l.block) ∧
    ((∃ e, o.exitBlock = some e) ↔
      ∃ k ∈ o.values, ∀ l ∈ o.values, PostDominates b.succ b.returns l.block k.block) := by
  have hval := (C39_values h hl).2
  refine ⟨⟨?_, ?_⟩, ⟨?_, ?_⟩⟩
  · rintro ⟨e, he⟩
    obtain ⟨h1, i, _, h2, _⟩ := C39_entry hv h he
    exact ⟨_, h2, h1⟩
  · rintro ⟨k, hk, hall⟩
    unfold Body.mirLocations at h
    split at h
    · exact absurd h (by simp)
    · simp only [Option.some.injEq] at h
      subst h
      rw [values_eq] at hk hall
      obtain ⟨_, _, hne⟩ := locationMap_spec b locs
      dsimp only at hk hall ⊢
      rw [← Option.isSome_iff_exists, List.find?_isSome]
      refine ⟨k.block, (mem_blocks (fun e he => (hne e he).1) _).2 ⟨k, hk, rfl⟩, ?_⟩
      rw [List.all_eq_true]
      intro x hx
      obtain ⟨l, hl2, rfl⟩ := (mem_blocks (fun e he => (hne e he).1) _).1 hx
      exact (dominates_iff hv).2 (hall l hl2)
  · rintro ⟨e, he⟩
    obtain ⟨h1, i, _, h2, _⟩ := C39_exit hv hl h he
    exact ⟨_, h2, h1⟩
  · rintro ⟨k, hk, hall⟩
    unfold Body.mirLocations at h
    split at h
    · exact absurd h (by simp)
    · simp only [Option.some.injEq] at h
      subst h
      rw [values_eq] at hk hall hval
      obtain ⟨_, _, hne⟩ := locationMap_spec b locs
      dsimp only at hk hall hval ⊢
      rw [← Option.isSome_iff_exists, List.find?_isSome]
      refine ⟨k.block, (mem_blocks (fun e he => (hne e he).1) _).2 ⟨k, hk, rfl⟩, ?_⟩
      rw [List.all_eq_true]
      intro x hx
      obtain ⟨l, hl2, rfl⟩ := (mem_blocks (fun e he => (hne e he).1) _).1 hx
      exact (C37_postdominates (succ_lt hv) _ (hl l ((hval l).1 hl2).1) (hl k ((hval k).1 hk).1)).2 (hall l hl2)

/-- An `if` statement: the node's locations are in all four blocks. -/
def ifBody : Body :=
  [⟨2, .switchInt [1, 2], false⟩, ⟨1, .goto 3, false⟩, ⟨1, .goto 3, false⟩, ⟨1, .ret, false⟩]

example : (ifBody.mirLocations [⟨3, 0⟩, ⟨1, 0⟩, ⟨2, 0⟩, ⟨0, 1⟩, ⟨0, 2⟩]).map
    (fun o => (o.entryLocation, o.exitLocation)) = some (some ⟨0, 1⟩, some ⟨3, 0⟩) := by decide

/-! ## C63: hash order -/

theorem values_perm_mem {b : Body} {locs locs' : List Loc} {o o' : Ordered}
    (h : b.mirLocations locs = some o) (h' : b.mirLocations locs' = some o') (hp : ∀ l, l ∈ locs ↔ l ∈ locs')
    (hl : ∀ l ∈ locs, l.block < b.length) : ∀ l, l ∈ o.values ↔ l ∈ o'.values := by
  intro l
  rw [(C39_values h hl).2, (C39_values h' (fun l hl' => hl l ((hp l).2 hl'))).2, hp]

/-- The entry does not depend on the iteration order of the hash maps. -/
theorem C63_entry {b : Body} (hv : Valid b) {locs locs' : List Loc} {o o' : Ordered}
    (h : b.mirLocations locs = some o) (h' : b.mirLocations locs' = some o') (hp : ∀ l, l ∈ locs ↔ l ∈ locs')
    (hl : ∀ l ∈ locs, l.block < b.length) : o.entryLocation = o'.entryLocation := by
  have hvm := values_perm_mem h h' hp hl
  have hl' : ∀ l ∈ locs', l.block < b.length := fun l hm => hl l ((hp l).2 hm)
  have key : o.entryBlock = o'.entryBlock := by
    cases he : o.entryBlock with
    | none =>
      cases he' : o'.entryBlock with
      | none => rfl
      | some e' =>
        obtain ⟨h1, i, _, h2, _⟩ := C39_entry hv h' he'
        have := (C39_found hv hl h).1.2 ⟨_, (hvm _).2 h2, fun l hm => h1 l ((hvm l).1 hm)⟩
        rw [he] at this
        simp at this
    | some e =>
      obtain ⟨h1, i, _, h2, _⟩ := C39_entry hv h he
      cases he' : o'.entryBlock with
      | none =>
        have := (C39_found hv hl' h').1.2 ⟨_, (hvm _).1 h2, fun l hm => h1 l ((hvm l).2 hm)⟩
        rw [he'] at this
        simp at this
      | some e' =>
        obtain ⟨h1', i', _, h2', _⟩ := C39_entry hv h' he'
        have d1 := h1 _ ((hvm _).2 h2')
        have d2 := h1' _ ((hvm _).1 h2)
        rw [dominance_antisymm d1.1 d1.2 d2.2]
  cases he : o.entryBlock with
  | none => simp only [Ordered.entryLocation, ← key, he]
  | some e =>
    obtain ⟨_, i, h1, h2, h3⟩ := C39_entry hv h he
    obtain ⟨_, i', h1', h2', h3'⟩ := C39_entry hv h' (key ▸ he)
    have a := h3 i' ((hvm _).2 h2')
    have b := h3' i ((hvm _).1 h2)
    have : i = i' := by omega
    rw [h1, h1', this]

/-- Nor does the exit, for a body that can return. -/
theorem C63_exit_partial {b : Body} (hv : Valid b) {locs locs' : List Loc} {o o' : Ordered}
    (h : b.mirLocations locs = some o) (h' : b.mirLocations locs' = some o') (hp : ∀ l, l ∈ locs ↔ l ∈ locs')
    (hl : ∀ l ∈ locs, l.block < b.length) (hret : b.returns ≠ []) : o.exitLocation = o'.exitLocation := by
  have hvm := values_perm_mem h h' hp hl
  have hl' : ∀ l ∈ locs', l.block < b.length := fun l hm => hl l ((hp l).2 hm)
  obtain ⟨x, hx⟩ := List.exists_mem_of_ne_nil _ hret
  have key : o.exitBlock = o'.exitBlock := by
    cases he : o.exitBlock with
    | none =>
      cases he' : o'.exitBlock with
      | none => rfl
      | some e' =>
        obtain ⟨h1, i, _, h2, _⟩ := C39_exit hv hl' h' he'
        have := (C39_found hv hl h).2.2 ⟨_, (hvm _).2 h2, fun l hm => h1 l ((hvm l).1 hm)⟩
        rw [he] at this
        simp at this
    | some e =>
      obtain ⟨h1, i, _, h2, _⟩ := C39_exit hv hl h he
      cases he' : o'.exitBlock with
      | none =>
        have := (C39_found hv hl' h').2.2 ⟨_, (hvm _).1 h2, fun l hm => h1 l ((hvm l).2 hm)⟩
        rw [he'] at this
        simp at this
      | some e' =>
        obtain ⟨h1', i', _, h2', _⟩ := C39_exit hv hl' h' he'
        have d1 := h1 _ ((hvm _).2 h2') x hx
        have d2 := h1' _ ((hvm _).1 h2) x hx
        have : e = e' := (postdominance_antisymm d1.1 d1.2 d2.2).symm
        rw [this]
  cases he : o.exitBlock with
  | none => simp only [Ordered.exitLocation, ← key, he]
  | some e =>
    obtain ⟨_, i, h1, h2, h3⟩ := C39_exit hv hl h he
    obtain ⟨_, i', h1', h2', h3'⟩ := C39_exit hv hl' h' (key ▸ he)
    have a := h3 i' ((hvm _).2 h2')
    have b := h3' i ((hvm _).1 h2)
    have : i = i' := by omega
    rw [h1, h1', this]

/-- In a body without returns the exit of a node depends on the order in which the hash map is iterated:
an endless loop over two blocks. -/
theorem C63_endless_loop : ∃ (b : Body) (l l' : List Loc), l.Perm l' ∧
    (b.mirLocations l).map (·.exitLocation) ≠ (b.mirLocations l').map (·.exitLocation) :=
  ⟨[⟨1, .goto 1, false⟩, ⟨1, .goto 0, false⟩], [⟨0, 0⟩, ⟨1, 0⟩], [⟨1, 0⟩, ⟨0, 0⟩], .swap _ _ _, by decide⟩

end Verif.Cfg
