import Verif.Flow.Spec
/-!
# Properties of the region flow analysis
-/
namespace Verif.Flow

open Verif.Graph

theorem mem_succOf {edges : List (Nat × Nat)} {a b : Nat} : b ∈ succOf edges a ↔ (a, b) ∈ edges := by
  simp only [succOf, List.mem_map, List.mem_filter, beq_iff_eq]
  constructor
  · rintro ⟨⟨x, y⟩, ⟨h1, h2⟩, rfl⟩; dsimp only at h2; subst h2; exact h1
  · intro h; exact ⟨(a, b), ⟨h, rfl⟩, rfl⟩

theorem foldl_max_le (l : List Nat) (m : Nat) :
    m ≤ l.foldl (fun m v => max m (v + 1)) m ∧ ∀ v ∈ l, v < l.foldl (fun m v => max m (v + 1)) m := by
  induction l generalizing m with
  | nil => simp
  | cons a l ih =>
    simp only [List.foldl_cons]
    obtain ⟨h1, h2⟩ := ih (max m (a + 1))
    refine ⟨by omega, ?_⟩
    intro v hv
    rcases List.mem_cons.1 hv with rfl | hv
    · omega
    · exact h2 v hv

theorem mem_flatten {l : List (Nat × Nat)} {v : Nat} : v ∈ flattenTuples l ↔ ∃ e ∈ l, v = e.1 ∨ v = e.2 := by
  simp [flattenTuples]

theorem lt_countNodes {l : List (Nat × Nat)} {v : Nat} (h : v ∈ flattenTuples l) : v < countNodes l :=
  (foldl_max_le _ 0).2 v h

theorem edge_lt {l : List (Nat × Nat)} {a b : Nat} (h : (a, b) ∈ l) : a < countNodes l ∧ b < countNodes l :=
  ⟨lt_countNodes (mem_flatten.2 ⟨_, h, .inl rfl⟩), lt_countNodes (mem_flatten.2 ⟨_, h, .inr rfl⟩)⟩

theorem foldl_max_lt (l : List Nat) (m r : Nat) (h : r < l.foldl (fun m v => max m (v + 1)) m) :
    r < m ∨ ∃ v ∈ l, r ≤ v := by
  induction l generalizing m with
  | nil => exact .inl h
  | cons a l ih =>
    rw [List.foldl_cons] at h
    rcases ih _ h with h | ⟨v, hv, h⟩
    · rcases Nat.lt_or_ge r m with h' | h'
      · exact .inl h'
      · exact .inr ⟨a, by simp, by omega⟩
    · exact .inr ⟨v, by simp [hv], h⟩

theorem inGraph_iff {i : Input} {r : Nat} : InGraph i r ↔ r < countNodes i.constraints := by
  constructor
  · rintro ⟨⟨a, b⟩, he, h | h⟩
    · exact Nat.lt_of_le_of_lt h (edge_lt he).1
    · exact Nat.lt_of_le_of_lt h (edge_lt he).2
  · intro h
    rcases foldl_max_lt _ _ _ h with h | ⟨v, hv, h⟩
    · exact absurd h (by omega)
    · obtain ⟨e, he, rfl | rfl⟩ := mem_flatten.1 hv
      · exact ⟨e, he, .inl h⟩
      · exact ⟨e, he, .inr h⟩

theorem flowsInto_iff {i : Input} {a b : Nat} : FlowsInto i a b ↔ Reach (succOf i.constraints) a b := by
  constructor
  · intro h
    induction h with
    | refl => exact .refl
    | step _ h ih => exact .tail ih (mem_succOf.2 h)
  · intro h
    induction h with
    | refl => exact .refl
    | tail _ h ih => exact .step ih (mem_succOf.1 h)

theorem FlowsInto.trans {i : Input} {a b c : Nat} (h1 : FlowsInto i a b) (h2 : FlowsInto i b c) :
    FlowsInto i a c := flowsInto_iff.2 ((flowsInto_iff.1 h1).trans (flowsInto_iff.1 h2))

theorem Same.symm {i : Input} {a b : Nat} (h : Same i a b) : Same i b a := ⟨h.2, h.1⟩
theorem Same.trans {i : Input} {a b c : Nat} (h : Same i a b) (h2 : Same i b c) : Same i a c :=
  ⟨h.1.trans h2.1, h2.2.trans h.2⟩
theorem Same.refl (i : Input) (a : Nat) : Same i a a := ⟨.refl, .refl⟩

/-- Flows keep within the graph. -/
theorem flowsInto_lt {i : Input} {a b : Nat} (h : FlowsInto i a b) (ha : a < countNodes i.constraints) :
    b < countNodes i.constraints := by
  induction h with
  | refl => exact ha
  | step _ h _ => exact (edge_lt h).2

theorem same_lt {i : Input} {a b : Nat} (h : Same i a b) (ha : a < countNodes i.constraints) :
    b < countNodes i.constraints := flowsInto_lt h.1 ha

theorem bounded (l : List (Nat × Nat)) :
    ∀ a, a < countNodes l → ∀ b ∈ succOf l a, b < countNodes l :=
  fun _ _ _ hb => (edge_lt (mem_succOf.1 hb)).2

theorem mem_dfs_constraints {i : Input} {a b : Nat} (ha : a < countNodes i.constraints) :
    b ∈ dfs (succOf i.constraints) (countNodes i.constraints) a ↔ FlowsInto i a b := by
  rw [mem_dfs (bounded _) ha, flowsInto_iff]

abbrev Input.scc (i : Input) : Nat → Nat := sccOf (countNodes i.constraints) i.constraints

theorem scc_same {i : Input} {a : Nat} (ha : a < countNodes i.constraints) :
    Same i a (i.scc a) ∧ i.scc a < countNodes i.constraints := by
  unfold Input.scc sccOf
  cases h : (List.range (countNodes i.constraints)).find? (fun k =>
    decide (k ∈ dfs (succOf i.constraints) (countNodes i.constraints) a) &&
      decide (a ∈ dfs (succOf i.constraints) (countNodes i.constraints) k)) with
  | none => exact ⟨Same.refl i a, ha⟩
  | some k =>
    have h1 := List.find?_some h
    have hk : k < countNodes i.constraints := by simpa using List.mem_of_find?_eq_some h
    simp only [Bool.and_eq_true, decide_eq_true_eq, mem_dfs_constraints ha, mem_dfs_constraints hk] at h1
    exact ⟨h1, hk⟩

theorem scc_eq_of_same {i : Input} {a b : Nat} (ha : a < countNodes i.constraints) (h : Same i a b) :
    i.scc a = i.scc b := by
  have hb := same_lt h ha
  unfold Input.scc sccOf
  have : (List.range (countNodes i.constraints)).find? (fun k =>
      decide (k ∈ dfs (succOf i.constraints) (countNodes i.constraints) a) &&
        decide (a ∈ dfs (succOf i.constraints) (countNodes i.constraints) k)) =
      (List.range (countNodes i.constraints)).find? (fun k =>
      decide (k ∈ dfs (succOf i.constraints) (countNodes i.constraints) b) &&
        decide (b ∈ dfs (succOf i.constraints) (countNodes i.constraints) k)) := by
    apply find?_congr'
    intro k hk
    have hk : k < countNodes i.constraints := by simpa using hk
    rw [Bool.eq_iff_iff]
    simp only [Bool.and_eq_true, decide_eq_true_eq, mem_dfs_constraints ha, mem_dfs_constraints hk,
      mem_dfs_constraints hb]
    constructor
    · rintro ⟨h1, h2⟩; exact ⟨h.2.trans h1, h2.trans h.1⟩
    · rintro ⟨h1, h2⟩; exact ⟨h.1.trans h1, h2.trans h.2⟩
  rw [this]
  cases hf : (List.range (countNodes i.constraints)).find? (fun k =>
      decide (k ∈ dfs (succOf i.constraints) (countNodes i.constraints) b) &&
        decide (b ∈ dfs (succOf i.constraints) (countNodes i.constraints) k)) with
  | some k => rfl
  | none =>
    have := List.find?_eq_none.1 hf b (by simpa using hb)
    simp [mem_dfs_constraints hb, FlowsInto.refl] at this
where
  find?_congr' {p q : Nat → Bool} {l : List Nat} (h : ∀ k ∈ l, p k = q k) : l.find? p = l.find? q := by
    induction l with
    | nil => rfl
    | cons a l ih =>
      simp only [List.find?_cons, h a (by simp)]
      rw [ih (fun k hk => h k (by simp [hk]))]

/-- Component numbers are equal iff the regions are in the same component. -/
theorem scc_eq_iff {i : Input} {a b : Nat} (ha : a < countNodes i.constraints)
    (hb : b < countNodes i.constraints) : i.scc a = i.scc b ↔ Same i a b := by
  constructor
  · intro h
    have h1 := (scc_same ha).1
    have h2 := (scc_same hb).1
    rw [h] at h1
    exact h1.trans h2.symm
  · exact scc_eq_of_same ha

/-! ### `flow_from_sources` -/

theorem mem_flowFrom {n : Nat} {sources : List Nat} {g : List (Nat × Nat)} (hs : ∀ s ∈ sources, s < n)
    (hg : ∀ e ∈ g, e.1 < n ∧ e.2 < n) {t s : Nat} :
    (t, s) ∈ flowFromSources n sources g ↔ s ∈ sources ∧ Reach (succOf g) s t := by
  have hb : ∀ a, a < n → ∀ b ∈ succOf g a, b < n := fun a _ b hb => (hg _ (mem_succOf.1 hb)).2
  simp only [flowFromSources, List.mem_flatMap, List.mem_map, Prod.mk.injEq]
  constructor
  · rintro ⟨x, hx, y, hy, rfl, rfl⟩
    exact ⟨hx, (mem_dfs hb (hs x hx)).1 hy⟩
  · rintro ⟨h1, h2⟩
    exact ⟨s, h1, t, (mem_dfs hb (hs s h1)).2 h2, rfl, rfl⟩

theorem reach_lt {n : Nat} {g : List (Nat × Nat)} (hg : ∀ e ∈ g, e.1 < n ∧ e.2 < n) {a b : Nat}
    (h : Reach (succOf g) a b) (ha : a < n) : b < n := by
  induction h with
  | refl => exact ha
  | tail _ h _ => exact (hg _ (mem_succOf.1 h)).2

/-- The relation built from sources holds between a node and exactly the sources that reach it. -/
theorem mem_trReachable {n : Nat} {sources : List Nat} {g : List (Nat × Nat)} (hs : ∀ s ∈ sources, s < n)
    (hg : ∀ e ∈ g, e.1 < n ∧ e.2 < n) {a b : Nat} :
    b ∈ trReachable n (flowFromSources n sources g) a ↔ b ∈ sources ∧ Reach (succOf g) b a := by
  have hb : ∀ a, a < n → ∀ b ∈ succOf (flowFromSources n sources g) a, b < n := by
    intro a _ b hb
    exact hs b ((mem_flowFrom hs hg).1 (mem_succOf.1 hb)).1
  simp only [trReachable, List.mem_flatMap]
  constructor
  · rintro ⟨s, hs1, hs2⟩
    have hes := (mem_flowFrom hs hg).1 (mem_succOf.1 hs1)
    rw [mem_dfs hb (hs s hes.1)] at hs2
    induction hs2 with
    | refl => exact hes
    | tail _ h ih =>
      have he := (mem_flowFrom hs hg).1 (mem_succOf.1 h)
      exact ⟨he.1, he.2.trans ih.2⟩
  · rintro ⟨h1, h2⟩
    refine ⟨b, mem_succOf.2 ((mem_flowFrom hs hg).2 ⟨h1, h2⟩), ?_⟩
    exact (mem_dfs hb (hs b h1)).2 .refl

/-! ### The component graph -/

theorem sccEdges_lt (i : Input) : ∀ e ∈ i.sccEdges, e.1 < countNodes i.constraints ∧
    e.2 < countNodes i.constraints := by
  intro e he
  simp only [Input.sccEdges, List.mem_map] at he
  obtain ⟨x, hx, rfl⟩ := he
  have := edge_lt (a := x.1) (b := x.2) hx
  exact ⟨(scc_same this.1).2, (scc_same this.2).2⟩

theorem reach_scc {i : Input} {p r : Nat} (hp : p < countNodes i.constraints)
    (hr : r < countNodes i.constraints) :
    Reach (succOf i.sccEdges) (i.scc p) (i.scc r) ↔ FlowsInto i p r := by
  constructor
  · intro h
    have key : ∀ y, Reach (succOf i.sccEdges) (i.scc p) y → ∀ r, r < countNodes i.constraints →
        i.scc r = y → FlowsInto i p r := by
      intro y h
      induction h with
      | refl => intro r hr h; exact ((scc_eq_iff hr hp).1 h).2
      | tail _ he ih =>
        intro r hr h
        have he := mem_succOf.1 he
        simp only [Input.sccEdges, List.mem_map, Prod.mk.injEq] at he
        obtain ⟨⟨a, b⟩, hab, h1, h2⟩ := he
        have hlt := edge_lt hab
        have hpa := ih a hlt.1 h1
        have hbr := (scc_eq_iff hlt.2 hr).1 (h2.trans h.symm)
        exact (FlowsInto.step hpa hab).trans hbr.1
    exact key _ h r hr rfl
  · intro h
    induction h with
    | refl => exact .refl
    | step h he ih =>
      refine .tail (ih (edge_lt he).1) (mem_succOf.2 ?_)
      simp only [Input.sccEdges, List.mem_map]
      exact ⟨_, he, rfl⟩

/-! ### The declared graph -/

theorem occurs_iff {i : Input} {r : Nat} : r ∈ flattenTuples i.constraints ↔ Occurs i r := mem_flatten

theorem callers_iff {i : Input} {p : Nat} : p ∈ i.callers ↔ Caller i p := by
  simp [Input.callers, Caller, occurs_iff]

theorem caller_lt {i : Input} (hk : KnownRegions i) {p : Nat} (h : Caller i p) :
    p < countNodes i.constraints := by
  rcases h with ⟨_, h⟩ | h
  · exact lt_countNodes (occurs_iff.2 h)
  · exact inGraph_iff.1 (hk.1 p h)

theorem declaredEdges_lt {i : Input} (hk : KnownRegions i) : ∀ e ∈ i.declaredEdges,
    e.1 < countNodes i.constraints ∧ e.2 < countNodes i.constraints := by
  intro e he
  simp only [Input.declaredEdges, List.mem_append, List.mem_map, List.mem_filter, Bool.and_eq_true,
    decide_eq_true_eq] at he
  rcases he with ⟨x, ⟨_, h1, h2⟩, rfl⟩ | ⟨o, ⟨p, hp, rfl⟩, rfl⟩
  · exact ⟨(scc_same (lt_countNodes h1)).2, (scc_same (lt_countNodes h2)).2⟩
  · have := (scc_same (caller_lt hk (callers_iff.1 hp))).2
    exact ⟨this, this⟩

theorem reach_declared {i : Input} {p q : Nat} (hp : p < countNodes i.constraints)
    (hq : q < countNodes i.constraints) :
    Reach (succOf i.declaredEdges) (i.scc p) (i.scc q) ↔ Chain i (Used i) p q := by
  constructor
  · intro h
    have key : ∀ y, Reach (succOf i.declaredEdges) (i.scc p) y → ∀ r, r < countNodes i.constraints →
        i.scc r = y → Chain i (Used i) p r := by
      intro y h
      induction h with
      | refl => intro r hr h; exact .refl ((scc_eq_iff hr hp).1 h).symm
      | tail _ he ih =>
        intro r hr h
        have he := mem_succOf.1 he
        simp only [Input.declaredEdges, List.mem_append, List.mem_map, List.mem_filter, Bool.and_eq_true,
          decide_eq_true_eq, Prod.mk.injEq] at he
        rcases he with ⟨⟨c, d⟩, ⟨hcd, h1, h2⟩, h3, h4⟩ | ⟨o, _, rfl, rfl⟩
        · have hc := ih c (lt_countNodes h1) h3
          have hd := (scc_eq_iff (lt_countNodes h2) hr).1 (h4.trans h.symm)
          exact .step hc (Same.refl i c) hcd ⟨occurs_iff.1 h1, occurs_iff.1 h2⟩ hd
        · exact ih r hr h
    exact key _ h q hq rfl
  · intro h
    have key : ∀ q, Chain i (Used i) p q → q < countNodes i.constraints ∧
        Reach (succOf i.declaredEdges) (i.scc p) (i.scc q) := by
      intro q h
      induction h with
      | refl h => exact ⟨same_lt h hp, by rw [scc_eq_of_same hp h]; exact .refl⟩
      | @step b c d e _ hbc hcd hok hde ih =>
        have hd := lt_countNodes (occurs_iff.2 hok.2)
        refine ⟨same_lt hde hd, ?_⟩
        rw [← scc_eq_of_same hd hde]
        refine .tail (b := i.scc c) ?_ (mem_succOf.2 ?_)
        · rw [← scc_eq_of_same ih.1 hbc]; exact ih.2
        · simp only [Input.declaredEdges, List.mem_append, List.mem_map, List.mem_filter, Bool.and_eq_true,
            decide_eq_true_eq]
          exact .inl ⟨(c, d), ⟨hcd, occurs_iff.2 hok.1, occurs_iff.2 hok.2⟩, rfl⟩
    exact (key q h).2

/-! ### The result -/

theorem queried_iff {i : Input} : i.queried.all (fun r => decide (r < countNodes i.constraints)) = true ↔
    KnownRegions i := by
  have hloc : ∀ x, x ∈ (i.borrows.filter (fun b => !b.2)).map (·.1) ↔ Local i x := by
    intro x
    simp only [Local, List.mem_map, List.mem_filter]
    constructor
    · rintro ⟨⟨a, b⟩, ⟨h1, h2⟩, rfl⟩
      simp only [Bool.not_eq_true'] at h2
      subst h2; exact h1
    · intro h; exact ⟨(x, false), ⟨h, rfl⟩, rfl⟩
  simp only [List.all_eq_true, decide_eq_true_eq, Input.queried, List.mem_append, KnownRegions, inGraph_iff, hloc]
  grind

theorem computeFlows_some {i : Input} {f : Flows} (h : computeFlows i = some f) : KnownRegions i ∧
    f.n = countNodes i.constraints ∧ f.scc = i.scc ∧
    f.specified = flowFromSources (countNodes i.constraints) (i.callers.map i.scc) i.declaredEdges ∧
    f.abstractSources = i.callers.map i.scc ∧
    f.containsAbstract = flowFromSources (countNodes i.constraints) (i.callers.map i.scc) i.sccEdges ∧
    f.containsLocal = flowFromSources (countNodes i.constraints)
      (((i.borrows.filter (fun b => !b.2)).map (·.1)).map i.scc) i.sccEdges ∧
    f.danglingSources = i.dangling.map i.scc := by
  unfold computeFlows at h
  dsimp only at h
  split at h
  · rename_i hq
    simp only [Option.some.injEq] at h
    subst h
    exact ⟨queried_iff.1 hq, rfl, rfl, rfl, rfl, rfl, rfl, rfl⟩
  · exact absurd h (by simp)

theorem local_iff {i : Input} {x : Nat} : x ∈ (i.borrows.filter (fun b => !b.2)).map (·.1) ↔ Local i x := by
  simp only [Local, List.mem_map, List.mem_filter]
  constructor
  · rintro ⟨⟨a, b⟩, ⟨h1, h2⟩, rfl⟩
    simp only [Bool.not_eq_true'] at h2
    subst h2; exact h1
  · intro h; exact ⟨(x, false), ⟨h, rfl⟩, rfl⟩

/-! ## C33 -/

/-- The caller regions attributed to a region are exactly those that flow into it. -/
theorem C33_abstract {i : Input} {f : Flows} (h : computeFlows i = some f) {r : Nat}
    (hr : InGraph i r) (c : Nat) :
    c ∈ trReachable f.n f.containsAbstract (f.scc r) ↔
      ∃ p, Caller i p ∧ f.scc p = c ∧ FlowsInto i p r := by
  rw [inGraph_iff] at hr
  obtain ⟨hk, h1, h2, h3, h4, h5, h6, h7⟩ := computeFlows_some h
  rw [h1, h2, h5, mem_trReachable]
  · simp only [List.mem_map]
    constructor
    · rintro ⟨⟨p, hp, rfl⟩, hR⟩
      have hp := callers_iff.1 hp
      exact ⟨p, hp, rfl, (reach_scc (caller_lt hk hp) hr).1 hR⟩
    · rintro ⟨p, hp, rfl, hf⟩
      exact ⟨⟨p, callers_iff.2 hp, rfl⟩, (reach_scc (caller_lt hk hp) hr).2 hf⟩
  · intro s hs
    simp only [List.mem_map] at hs
    obtain ⟨p, hp, rfl⟩ := hs
    exact (scc_same (caller_lt hk (callers_iff.1 hp))).2
  · exact sccEdges_lt i

/-- The local regions attributed to a region are exactly those that flow into it. -/
theorem C33_local {i : Input} {f : Flows} (h : computeFlows i = some f) {r : Nat}
    (hr : InGraph i r) (c : Nat) :
    c ∈ trReachable f.n f.containsLocal (f.scc r) ↔
      ∃ l, Local i l ∧ f.scc l = c ∧ FlowsInto i l r := by
  rw [inGraph_iff] at hr
  obtain ⟨hk, h1, h2, h3, h4, h5, h6, h7⟩ := computeFlows_some h
  rw [h1, h2, h6, mem_trReachable]
  · rw [List.mem_map]
    constructor
    · rintro ⟨⟨p, hp, rfl⟩, hR⟩
      have hp := local_iff.1 hp
      exact ⟨p, hp, rfl, (reach_scc (inGraph_iff.1 (hk.2.1 p hp)) hr).1 hR⟩
    · rintro ⟨p, hp, rfl, hf⟩
      exact ⟨⟨p, local_iff.2 hp, rfl⟩, (reach_scc (inGraph_iff.1 (hk.2.1 p hp)) hr).2 hf⟩
  · intro s hs
    rw [List.mem_map] at hs
    obtain ⟨p, hp, rfl⟩ := hs
    exact (scc_same (inGraph_iff.1 (hk.2.1 p (local_iff.1 hp)))).2
  · exact sccEdges_lt i

/-- A caller region counts as declared to flow into another iff there is a chain of declared relations
between regions that occur in the body. -/
theorem C33_declared_used {i : Input} {f : Flows} (h : computeFlows i = some f) {p q : Nat}
    (hp : Caller i p) (hq : Caller i q) :
    f.isSpecified (f.scc q) (f.scc p) = true ↔ Chain i (Used i) p q := by
  obtain ⟨hk, h1, h2, h3, h4, h5, h6, h7⟩ := computeFlows_some h
  unfold Flows.isSpecified
  rw [decide_eq_true_eq, h1, h2, h3, mem_trReachable]
  · rw [← reach_declared (caller_lt hk hp) (caller_lt hk hq)]
    simp only [and_iff_right_iff_imp]
    intro _
    exact List.mem_map_of_mem (callers_iff.2 hp)
  · intro s hs
    simp only [List.mem_map] at hs
    obtain ⟨p, hp, rfl⟩ := hs
    exact (scc_same (caller_lt hk (callers_iff.1 hp))).2
  · exact declaredEdges_lt hk

/-- If every declared relation is between regions that occur in the body, declared means: there is a chain
of declared relations. -/
theorem C33_declared_partial {i : Input} {f : Flows} (h : computeFlows i = some f)
    (hused : ∀ e ∈ i.known, Used i e) {p q : Nat} (hp : Caller i p) (hq : Caller i q) :
    f.isSpecified (f.scc q) (f.scc p) = true ↔ Chain i (fun _ => True) p q := by
  rw [C33_declared_used h hp hq]
  clear hp hq
  constructor
  · intro h
    induction h with
    | refl h => exact .refl h
    | step _ h1 h2 _ h3 ih => exact .step ih h1 h2 trivial h3
  · intro h
    induction h with
    | refl h => exact .refl h
    | step _ h1 h2 _ h3 ih => exact .step ih h1 h2 (hused _ h2) h3

/-- `fn f<'a: 'b, 'b: 'c, 'c>(x: &'a T) -> &'c T { x }`: `'a` (0) is declared to outlive `'c` (2) through
`'b` (1), but `'b` occurs nowhere in the body, so the chain is not seen. -/
def unusedMiddle : Input :=
  ⟨[(0, 2)], [0, 1, 2], [2], [(0, 1), (1, 2)], [], []⟩

/-- The full statement of C33 is false: a chain of declared relations through a region that does not occur
in the body is missed, and the flow is reported as missing a declaration. -/
theorem C33_unused_middle : ∃ i f, computeFlows i = some f ∧ ∃ p q, Caller i p ∧ Caller i q ∧
    Chain i (fun _ => True) p q ∧ f.isSpecified (f.scc q) (f.scc p) = false ∧
    f.flowKind p q = .missingUniversalConstraint := by
  refine ⟨unusedMiddle, (computeFlows unusedMiddle).get (by decide), by simp, 0, 2, ?_, ?_, ?_, by decide,
    by decide⟩
  · exact .inl ⟨by decide, (0, 2), by decide, .inl rfl⟩
  · exact .inr (by decide)
  · have h0 : Chain unusedMiddle (fun _ => True) 0 0 := .refl (Same.refl _ 0)
    have h1 : Chain unusedMiddle (fun _ => True) 0 1 :=
      .step h0 (Same.refl _ 0) (by decide) trivial (Same.refl _ 1)
    exact .step h1 (Same.refl _ 1) (by decide) trivial (Same.refl _ 2)

/-! ## C32 -/

theorem abstractMember_iff {i : Input} {f : Flows} (h : computeFlows i = some f) {r : Nat}
    (hr : r < countNodes i.constraints) :
    f.isAbstractMember r = true ↔ ∃ p, Caller i p ∧ Same i p r := by
  obtain ⟨hk, h1, h2, h3, h4, h5, h6, h7⟩ := computeFlows_some h
  unfold Flows.isAbstractMember
  rw [decide_eq_true_eq, h2, h4, List.mem_map]
  constructor
  · rintro ⟨p, hp, he⟩
    have hp := callers_iff.1 hp
    exact ⟨p, hp, (scc_eq_iff (caller_lt hk hp) hr).1 he⟩
  · rintro ⟨p, hp, he⟩
    exact ⟨p, callers_iff.2 hp, (scc_eq_iff (caller_lt hk hp) hr).2 he⟩

theorem localMember_iff {i : Input} {f : Flows} (h : computeFlows i = some f) {r : Nat}
    (hr : r < countNodes i.constraints) :
    f.hasLocalMember r = true ↔ ∃ l, Local i l ∧ FlowsInto i l r := by
  unfold Flows.hasLocalMember
  rw [Bool.not_eq_true', List.isEmpty_eq_false_iff_exists_mem]
  constructor
  · rintro ⟨c, hc⟩
    obtain ⟨l, h1, _, h2⟩ := (C33_local h (inGraph_iff.2 hr) c).1 hc
    exact ⟨l, h1, h2⟩
  · rintro ⟨l, h1, h2⟩
    exact ⟨f.scc l, (C33_local h (inGraph_iff.2 hr) _).2 ⟨l, h1, rfl, h2⟩⟩

theorem declared_all_iff {i : Input} {f : Flows} (h : computeFlows i = some f) {a b : Nat}
    (ha : a < countNodes i.constraints) (hb : b < countNodes i.constraints) :
    ((trReachable f.n f.containsAbstract (f.scc a)).all fun x =>
      (trReachable f.n f.containsAbstract (f.scc b)).all fun y => f.isSpecified y x) = true ↔
    ¬ Undeclared i a b := by
  simp only [List.all_eq_true, C33_abstract h (inGraph_iff.2 ha), C33_abstract h (inGraph_iff.2 hb)]
  constructor
  · rintro hall ⟨p, q, hp, hq, hpa, hqb, hn⟩
    exact hn ((C33_declared_used h hp hq).1 (hall _ ⟨p, hp, rfl, hpa⟩ _ ⟨q, hq, rfl, hqb⟩))
  · rintro hn _ ⟨p, hp, rfl, hpa⟩ _ ⟨q, hq, rfl, hqb⟩
    rw [C33_declared_used h hp hq]
    exact Classical.byContradiction fun hc => hn ⟨p, q, hp, hq, hpa, hqb, hc⟩

theorem dangling_iff {i : Input} {f : Flows} (h : computeFlows i = some f) {a : Nat}
    (ha : a < countNodes i.constraints) :
    ((trReachable f.n f.containsLocal (f.scc a)).any fun l => decide (l ∈ f.danglingSources)) = true ↔
    DanglingOut i a := by
  obtain ⟨hk, h1, h2, h3, h4, h5, h6, h7⟩ := computeFlows_some h
  simp only [List.any_eq_true, C33_local h (inGraph_iff.2 ha), decide_eq_true_eq]
  rw [h7, h2]
  constructor
  · rintro ⟨c, ⟨l, hl, rfl, hf⟩, hd⟩
    obtain ⟨d, hd, he⟩ := List.mem_map.1 hd
    exact ⟨l, d, hl, hf, hd, (scc_eq_iff (inGraph_iff.1 (hk.2.1 l hl)) (inGraph_iff.1 (hk.2.2 d hd))).1 he.symm⟩
  · rintro ⟨l, d, hl, hf, hd, hs⟩
    exact ⟨_, ⟨l, hl, rfl, hf⟩, List.mem_map.2 ⟨d, hd, ((scc_eq_iff (inGraph_iff.1 (hk.2.1 l hl)) (inGraph_iff.1 (hk.2.2 d hd))).2 hs).symm⟩⟩

/-- For every constraint graph and every two of its regions, the reported kind of flow is the first of the
reasons that applies, and the flow is accepted iff the regions are in the same component or none does. -/
theorem C32_flow_kind {i : Input} {f : Flows} (h : computeFlows i = some f) {a b : Nat}
    (ha : InGraph i a) (hb : InGraph i b) :
    (f.flowKind a b = .ok ↔
      Same i a b ∨ (¬ LocalEscapes i a b ∧ ¬ Undeclared i a b ∧ ¬ DanglingOut i a)) ∧
    (f.flowKind a b = .localOutlivesUniversal ↔ ¬ Same i a b ∧ LocalEscapes i a b) ∧
    (f.flowKind a b = .missingUniversalConstraint ↔
      ¬ Same i a b ∧ ¬ LocalEscapes i a b ∧ Undeclared i a b) ∧
    (f.flowKind a b = .localInvalidatedAtExit ↔
      ¬ Same i a b ∧ ¬ LocalEscapes i a b ∧ ¬ Undeclared i a b ∧ DanglingOut i a) := by
  rw [inGraph_iff] at ha
  rw [inGraph_iff] at hb
  have hs : f.scc a = f.scc b ↔ Same i a b := by
    rw [(computeFlows_some h).2.2.1]; exact scc_eq_iff ha hb
  have hl : (f.hasLocalMember a && f.isAbstractMember b) = true ↔ LocalEscapes i a b := by
    rw [Bool.and_eq_true, localMember_iff h ha, abstractMember_iff h hb]; rfl
  have hd := declared_all_iff h ha hb
  have hx := dangling_iff h ha
  unfold Flows.flowKind
  split
  · rename_i h1; have := hs.1 h1; simp [this]
  · rename_i h1
    have h1' : ¬ Same i a b := fun x => h1 (hs.2 x)
    split
    · rename_i h2; have := hl.1 h2; simp [this, h1']
    · rename_i h2
      have h2' : ¬ LocalEscapes i a b := fun x => h2 (hl.2 x)
      split
      · rename_i h3
        have h3' : Undeclared i a b := by
          apply Classical.byContradiction
          intro hc
          rw [hd.2 hc] at h3
          exact absurd h3 (by simp)
        simp [h1', h2', h3']
      · rename_i h3
        have h3' : ¬ Undeclared i a b := by
          apply hd.1
          simpa using h3
        split
        · rename_i h4; have := hx.1 h4; simp [h1', h2', h3', this]
        · rename_i h4
          have h4' : ¬ DanglingOut i a := fun x => h4 (hx.2 x)
          simp [h1', h2', h3', h4']

/-- The analysis answers iff every region asked about is in the graph; otherwise it panics. -/
theorem C32_total (i : Input) : (∃ f, computeFlows i = some f) ↔ KnownRegions i := by
  constructor
  · rintro ⟨f, h⟩; exact (computeFlows_some h).1
  · intro h
    unfold computeFlows
    dsimp only
    rw [if_pos (queried_iff.2 h)]
    exact ⟨_, rfl⟩

/-- A body without constraints and with a region in its return type makes it panic. -/
theorem C32_no_constraints_panics : computeFlows ⟨[], [0], [0], [], [], []⟩ = none := by decide

/-- What is shown at a use: nothing unless some constraint of the enclosing statement flows into a caller's
region; otherwise a violation iff some constraint of the statement into a caller's region is disallowed and
a constraint of the expression itself ends in one of its two regions. -/
theorem C32_boundary {i : Input} {f : Flows} (h : computeFlows i = some f) (ctx sp : List (Nat × Nat))
    (hctx : ∀ e ∈ ctx, InGraph i e.1 ∧ InGraph i e.2) :
    (f.flowPermission (some ctx) (some sp) = none ↔
      ¬ ∃ e ∈ ctx, ∃ p, Caller i p ∧ Same i p e.2) ∧
    ((∃ k, f.flowPermission (some ctx) (some sp) = some k ∧ k ≠ .ok) ↔ ∃ e ∈ ctx, Bad i sp e) := by
  have hany : (ctx.any fun e => f.isAbstractMember e.2) = true ↔ ∃ e ∈ ctx, ∃ p, Caller i p ∧ Same i p e.2 := by
    rw [List.any_eq_true]
    constructor
    · rintro ⟨e, he, h2⟩; exact ⟨e, he, (abstractMember_iff h (inGraph_iff.1 (hctx e he).2)).1 h2⟩
    · rintro ⟨e, he, h2⟩; exact ⟨e, he, (abstractMember_iff h (inGraph_iff.1 (hctx e he).2)).2 h2⟩
  have hguard : ∀ e ∈ ctx, (f.isAbstractMember e.2 && !(f.flowKind e.1 e.2).valid &&
      sp.any (fun g => g.2 == e.1 || g.2 == e.2)) = true ↔ Bad i sp e := by
    intro e he
    unfold Bad
    rw [Bool.and_eq_true, Bool.and_eq_true, abstractMember_iff h (inGraph_iff.1 (hctx e he).2), and_assoc, Bool.not_eq_true',
      Kind.valid, beq_eq_false_iff_ne, Ne, (C32_flow_kind h (hctx e he).1 (hctx e he).2).1, List.any_eq_true]
    simp only [Bool.or_eq_true, beq_iff_eq]
  unfold Flows.flowPermission
  dsimp only
  by_cases hc : (ctx.any fun e => f.isAbstractMember e.2) = true
  · rw [hc]
    simp only [Bool.not_true, Bool.false_eq_true, if_false]
    refine ⟨?_, ?_⟩
    · simpa using hany.1 hc
    · generalize hv : (ctx.filterMap fun e =>
        if (f.isAbstractMember e.2 && !(f.flowKind e.1 e.2).valid &&
            sp.any (fun g => g.2 == e.1 || g.2 == e.2)) = true then some (f.flowKind e.1 e.2)
        else none) = l
      have hmem : ∀ k, k ∈ l ↔ ∃ e ∈ ctx, (f.isAbstractMember e.2 && !(f.flowKind e.1 e.2).valid &&
            sp.any (fun g => g.2 == e.1 || g.2 == e.2)) = true ∧ f.flowKind e.1 e.2 = k := by
        intro k
        rw [← hv, List.mem_filterMap]
        constructor
        · rintro ⟨e, he, h1⟩
          split at h1
          · rename_i hg; exact ⟨e, he, hg, by simpa using h1⟩
          · exact absurd h1 (by simp)
        · rintro ⟨e, he, hg, rfl⟩
          exact ⟨e, he, by rw [if_pos hg]⟩
      have hne : ∀ k ∈ l, k ≠ .ok := by
        intro k hk
        obtain ⟨e, he, hg, rfl⟩ := (hmem k).1 hk
        simp only [Bool.and_eq_true, Bool.not_eq_true', Kind.valid, beq_eq_false_iff_ne] at hg
        exact hg.1.2
      simp only [Option.some.injEq]
      constructor
      · rintro ⟨k, hk, hok⟩
        cases l with
        | nil => simp at hk; exact absurd hk.symm hok
        | cons x r =>
          obtain ⟨e, he, hg, _⟩ := (hmem x).1 (by simp)
          exact ⟨e, he, (hguard e he).1 hg⟩
      · rintro ⟨e, he, hg⟩
        have hin := (hmem (f.flowKind e.1 e.2)).2 ⟨e, he, (hguard e he).2 hg, rfl⟩
        cases l with
        | nil => simp at hin
        | cons x r => exact ⟨x, by simp, hne x (by simp)⟩
  · have hc' : (ctx.any fun e => f.isAbstractMember e.2) = false := by simpa using hc
    rw [hc']
    simp only [Bool.not_false, if_true, true_iff]
    refine ⟨fun hx => hc (hany.2 hx), ?_⟩
    constructor
    · rintro ⟨k, hk, _⟩; exact absurd hk (by simp)
    · rintro ⟨e, he, hp, _⟩; exact absurd (hany.2 ⟨e, he, hp⟩) hc

/-- **C32 (kind).** The kind shown at a use is that of the first such constraint, and `ok` if there is none;
without constraints for the statement or for the expression nothing is shown. -/
theorem C32_kind {i : Input} {f : Flows} (h : computeFlows i = some f) (ctx sp : List (Nat × Nat))
    (hctx : ∀ e ∈ ctx, InGraph i e.1 ∧ InGraph i e.2) :
    (∀ pre e post, ctx = pre ++ e :: post → (∀ x ∈ pre, ¬ Bad i sp x) → Bad i sp e →
      f.flowPermission (some ctx) (some sp) = some (f.flowKind e.1 e.2)) ∧
    ((∃ e ∈ ctx, ∃ p, Caller i p ∧ Same i p e.2) → (∀ e ∈ ctx, ¬ Bad i sp e) →
      f.flowPermission (some ctx) (some sp) = some .ok) ∧
    f.flowPermission none (some sp) = none ∧ f.flowPermission (some ctx) none = none ∧
    f.flowPermission none none = none := by
  have hguard : ∀ e ∈ ctx, (f.isAbstractMember e.2 && !(f.flowKind e.1 e.2).valid &&
      sp.any (fun g => g.2 == e.1 || g.2 == e.2)) = true ↔ Bad i sp e := by
    intro e he
    unfold Bad
    rw [Bool.and_eq_true, Bool.and_eq_true, abstractMember_iff h (inGraph_iff.1 (hctx e he).2), and_assoc,
      Bool.not_eq_true', Kind.valid, beq_eq_false_iff_ne, Ne,
      (C32_flow_kind h (hctx e he).1 (hctx e he).2).1, List.any_eq_true]
    simp only [Bool.or_eq_true, beq_iff_eq]
  have hany : (∃ e ∈ ctx, ∃ p, Caller i p ∧ Same i p e.2) → (ctx.any fun e => f.isAbstractMember e.2) = true := by
    rintro ⟨e, he, h2⟩
    exact List.any_eq_true.2 ⟨e, he, (abstractMember_iff h (inGraph_iff.1 (hctx e he).2)).2 h2⟩
  have hnone : ∀ l : List (Nat × Nat), (∀ x ∈ l, x ∈ ctx) → (∀ x ∈ l, ¬ Bad i sp x) →
      l.filterMap (fun e => if (f.isAbstractMember e.2 && !(f.flowKind e.1 e.2).valid &&
        sp.any (fun g => g.2 == e.1 || g.2 == e.2)) = true then some (f.flowKind e.1 e.2) else none) = [] := by
    intro l h1 h2
    rw [List.filterMap_eq_nil_iff]
    intro x hx
    rw [if_neg]
    exact fun hb => h2 x hx ((hguard x (h1 x hx)).1 hb)
  refine ⟨?_, ?_, rfl, ?_, rfl⟩
  · intro pre e post he hpre hb
    have hm : e ∈ ctx := by rw [he]; simp
    unfold Flows.flowPermission
    dsimp only
    rw [hany ⟨e, hm, hb.1⟩]
    simp only [Bool.not_true, Bool.false_eq_true, if_false, Option.some.injEq]
    rw [he, List.filterMap_append, hnone pre (by intro x hx; rw [he]; simp [hx]) hpre, List.nil_append,
      List.filterMap_cons, if_pos ((hguard e hm).2 hb)]
    simp
  · intro h1 h2
    unfold Flows.flowPermission
    dsimp only
    rw [hany h1]
    simp only [Bool.not_true, Bool.false_eq_true, if_false, Option.some.injEq]
    rw [hnone ctx (fun _ h => h) h2]
    rfl
  · unfold Flows.flowPermission
    dsimp only
    split <;> rfl

/-- `fn f<'a, 'b>(x: &'a T, y: &'b T) -> &'a T`: regions 0 = 'a, 1 = 'b, 2 = region of `&local`, 3 = temp
holding `y`.  Returning `y` misses a declaration; returning a reference to a local is reported as a local
outliving; returning `x` is fine. -/
def sample : Input :=
  ⟨[(1, 3), (3, 4), (2, 5), (5, 6), (0, 7), (7, 0), (3, 0), (5, 0)], [0, 1], [0], [], [(2, false)], []⟩

example : (computeFlows sample).map (fun f => (f.flowKind 3 0, f.flowKind 5 0, f.flowKind 7 0, f.flowKind 1 3)) =
    some (.missingUniversalConstraint, .localOutlivesUniversal, .ok, .ok) := by decide

/-! ## C62 -/

/-- A flow from a caller's region to one that it is not declared to outlive is refused when the two are in
different components. -/
theorem C62_undeclared_partial {i : Input} {f : Flows} (h : computeFlows i = some f) {p q : Nat}
    (hp : Caller i p) (hq : Caller i q) (hdiff : ¬ Same i p q) (hn : ¬ Chain i (Used i) p q) :
    f.flowKind p q ≠ .ok := by
  have hk := (computeFlows_some h).1
  rw [Ne, (C32_flow_kind h (inGraph_iff.2 (caller_lt hk hp)) (inGraph_iff.2 (caller_lt hk hq))).1]
  rintro (h1 | ⟨_, h2, _⟩)
  · exact hdiff h1
  · exact h2 ⟨p, q, hp, hq, .refl, .refl, hn⟩

/-- What a signature declares: the given relations and what follows from them. -/
inductive Declared (i : Input) (a : Nat) : Nat → Prop
  | refl : Declared i a a
  | step {b c} : Declared i a b → (b, c) ∈ i.known → Declared i a c

/-- So in a body that makes no two different regions equal, every accepted flow between regions of the caller follows from
the signature. -/
theorem C62_declared_partial {i : Input} {f : Flows} (h : computeFlows i = some f) {p q : Nat}
    (hp : Caller i p) (hq : Caller i q) (hs : ∀ a b, Same i a b → a = b) (hok : f.flowKind p q = .ok) :
    Declared i p q := by
  have key : ∀ b, Chain i (Used i) p b → Declared i p b := by
    intro b hb
    induction hb with
    | refl h => rw [← hs _ _ h]; exact .refl
    | step _ h1 h2 _ h3 ih => rw [← hs _ _ h3]; rw [hs _ _ h1] at ih; exact .step ih h2
  refine Classical.byContradiction fun hn => ?_
  refine C62_undeclared_partial h hp hq (fun hc => hn ?_) (fun hc => hn (key q hc)) hok
  rw [hs _ _ hc]
  exact .refl

example : (computeFlows ⟨[(0, 1)], [0, 1], [], [(0, 1)], [], []⟩).map (fun f => (f.flowKind 0 1, f.flowKind 1 0)) =
    some (.ok, .missingUniversalConstraint) := by decide

example : ∀ a b, Same ⟨[(0, 1)], [0, 1], [], [(0, 1)], [], []⟩ a b → a = b := by
  have key : ∀ a b, FlowsInto ⟨[(0, 1)], [0, 1], [], [(0, 1)], [], []⟩ a b → a = b ∨ (a = 0 ∧ b = 1) := by
    intro a b h
    induction h with
    | refl => exact .inl rfl
    | step _ h ih =>
      simp only [List.mem_singleton, Prod.mk.injEq] at h
      omega
  intro a b ⟨h1, h2⟩
  have := key a b h1
  have := key b a h2
  omega

/-- What is accepted between regions of the caller: what is merged, and what gets no local data and nothing of the caller
that is not declared to flow on. -/
theorem C62_exact {i : Input} {f : Flows} (h : computeFlows i = some f) {p q : Nat} (hp : Caller i p) (hq : Caller i q) :
    f.flowKind p q = .ok ↔ Same i p q ∨ ((∀ l, Local i l → ¬ FlowsInto i l p) ∧
      ∀ a b, Caller i a → Caller i b → FlowsInto i a p → FlowsInto i b q → Chain i (Used i) a b) := by
  have hk := (computeFlows_some h).1
  rw [(C32_flow_kind h (inGraph_iff.2 (caller_lt hk hp)) (inGraph_iff.2 (caller_lt hk hq))).1]
  refine or_congr Iff.rfl ⟨?_, ?_⟩
  · rintro ⟨h1, h2, -⟩
    refine ⟨fun l hl hf => h1 ⟨⟨l, hl, hf⟩, q, hq, .refl, .refl⟩, fun a b ha hb h3 h4 => ?_⟩
    exact Classical.byContradiction fun hc => h2 ⟨a, b, ha, hb, h3, h4, hc⟩
  · rintro ⟨h1, h2⟩
    refine ⟨?_, ?_, ?_⟩
    · rintro ⟨⟨l, hl, hf⟩, -⟩; exact h1 l hl hf
    · rintro ⟨a, b, ha, hb, h3, h4, hc⟩; exact hc (h2 a b ha hb h3 h4)
    · rintro ⟨l, d, hl, hf, -⟩; exact h1 l hl hf

/-- The full statement is false: if the body makes data flow both ways between two caller regions that are
unrelated in the signature, the two are merged and every flow between them is accepted. -/
theorem C62_cycle_accepted : ∃ i f, computeFlows i = some f ∧ ∃ p q, p ≠ q ∧ Caller i p ∧ Caller i q ∧
    i.known = [] ∧ f.flowKind p q = .ok ∧ f.flowKind q p = .ok := by
  refine ⟨⟨[(0, 1), (1, 0)], [0, 1], [], [], [], []⟩,
    (computeFlows ⟨[(0, 1), (1, 0)], [0, 1], [], [], [], []⟩).get (by decide), by simp, 0, 1, by decide,
    ?_, ?_, rfl, by decide, by decide⟩
  · exact .inl ⟨by decide, (0, 1), by decide, .inl rfl⟩
  · exact .inl ⟨by decide, (0, 1), by decide, .inr rfl⟩

end Verif.Flow
