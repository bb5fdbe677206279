import Verif.Segments.Props
/-!
# C68: the block where the arms of a branch come together
-/
namespace Verif.Segments

open Verif.Graph Verif.Cfg

/-- The block ends in an edge added by the compiler for loops and matches. -/
def EndsInFalseEdge (b : Body) (c : Nat) : Prop := ∃ r i, b.term c = .falseEdge r i

/-- A block after the branch: dominated by it, and passed on every way from it to every exit. -/
structure After (b : Body) (root c : Nat) : Prop where
  ne : c ≠ root
  dominated : Dominates b.succ root c
  real : ¬ EndsInFalseEdge b c
  post : PostDominates b.succ b.returns root c

/-- Everything dominated by the branch comes together in one of the blocks it dominates. -/
def ComesTogether (b : Body) (root : Nat) : Prop :=
  ∃ m, Dominates b.succ root m ∧ ∀ x, Dominates b.succ root x → PostDominates b.succ b.returns x m

theorem dom_lt {b : Body} (hv : Valid b) {d x : Nat} (h : Dominates b.succ d x) : x < b.length ∧ d < b.length := by
  have key : ∀ {y}, Reach b.succ 0 y → y < b.length := by
    intro y hy
    induction hy with
    | refl => exact hv.nonempty
    | tail _ hc ih => exact succ_lt hv _ ih _ hc
  obtain ⟨l, hl⟩ := h.1.path
  obtain ⟨l1, _, h1, _⟩ := hl.split (h.2 l hl)
  exact ⟨key h.1, key h1.reach⟩

theorem dom_reach {b : Body} {d x : Nat} (h : Dominates b.succ d x) : Reach b.succ d x ∧ Reach b.succ 0 d := by
  obtain ⟨l, hl⟩ := h.1.path
  obtain ⟨l1, _, h1, h2, _⟩ := hl.split (h.2 l hl)
  exact ⟨h2.reach, h1.reach⟩

theorem mem_region {b : Body} (hv : Valid b) (root t : Nat) :
    t ∈ (dfs b.succ b.length root).filter (fun t => dominates b.succ b.length root t) ↔
      Dominates b.succ root t := by
  rw [List.mem_filter, dominates_iff hv]
  constructor
  · exact fun h => h.2
  · intro h
    exact ⟨(mem_dfs (succ_lt hv) (dom_lt hv h).2).2 (dom_reach h).1, h⟩

/-- A block between the branch and another block lies on every way between them. -/
theorem between {b : Body} {root c m : Nat} (hne : c ≠ root) (h1 : Dominates b.succ root c)
    (h2 : Dominates b.succ c m) {l : List Nat} (hl : Path b.succ root m l) : c ∈ l := by
  apply Classical.byContradiction
  intro hc
  apply hne
  refine dominance_antisymm (dom_reach h1).2 (fun l' hl' => ?_) (fun l' hl' => h1.2 l' hl')
  have := h2.2 _ (hl'.append hl)
  rcases List.mem_append.1 this with h | h
  · exact h
  · exact absurd (List.mem_of_mem_tail h) hc

theorem post_of_dom {b : Body} {root c m : Nat} (hne : c ≠ root) (h1 : Dominates b.succ root c)
    (h2 : Dominates b.succ c m) (h3 : PostDominates b.succ b.returns root m) :
    PostDominates b.succ b.returns root c := by
  intro x hx
  refine ⟨(h3 x hx).1, fun l hl => ?_⟩
  obtain ⟨l1, l2, hp1, _, _, hs, _⟩ := hl.split ((h3 x hx).2 l hl)
  exact hs _ (between hne h1 h2 hp1)

theorem dom_of_post {b : Body} (hret : b.returns ≠ []) {root c m : Nat}
    (hm : Dominates b.succ root m)
    (hc : PostDominates b.succ b.returns root c) (hcm : PostDominates b.succ b.returns c m)
    (hmm : PostDominates b.succ b.returns m m) :
    Dominates b.succ c m := by
  refine ⟨hm.1, fun l hl => ?_⟩
  obtain ⟨x, r, hx⟩ := List.exists_cons_of_ne_nil hret
  have hx : x ∈ b.returns := by rw [hx]; simp
  by_cases hcm' : m = c
  · subst hcm'; exact hl.last_mem
  · obtain ⟨_, l2, _, hp2, _, _, hs⟩ := hl.split (hm.2 l hl)
    apply hs
    apply Classical.byContradiction
    intro hcl
    apply hcm'
    refine postdominance_antisymm (hmm x hx).1 (fun l' hl' => ?_) (hcm x hx).2
    rcases List.mem_append.1 ((hc x hx).2 _ (hp2.append hl')) with h | h
    · exact absurd h hcl
    · exact List.mem_of_mem_tail h

/-- The last time either of two nodes is passed. -/
theorem last_of_two {succ : Nat → List Nat} {a m c d : Nat} {l : List Nat} (h : Path succ a m l)
    (hc : c ∈ l ∨ d ∈ l) :
    (∃ l', Path succ c m l' ∧ (∀ x ∈ l', x ∈ l) ∧ d ∉ l'.tail) ∨
    (∃ l', Path succ d m l' ∧ (∀ x ∈ l', x ∈ l) ∧ c ∉ l'.tail) := by
  induction h with
  | single a =>
    simp only [List.mem_singleton] at hc
    rcases hc with h | h <;> subst h
    · exact .inl ⟨_, .single _, by simp, by simp⟩
    · exact .inr ⟨_, .single _, by simp, by simp⟩
  | @cons a b' c' l hb hp ih =>
    by_cases hin : c ∈ l ∨ d ∈ l
    · rcases ih hin with ⟨l', h1, h2, h3⟩ | ⟨l', h1, h2, h3⟩
      · exact .inl ⟨l', h1, fun x hx => List.mem_cons_of_mem _ (h2 x hx), h3⟩
      · exact .inr ⟨l', h1, fun x hx => List.mem_cons_of_mem _ (h2 x hx), h3⟩
    · rw [not_or] at hin
      rcases hc with h | h
      · have := (List.mem_cons.1 h).resolve_right hin.1
        subst this
        exact .inl ⟨_, .cons hb hp, fun x hx => hx, by simpa using hin.2⟩
      · have := (List.mem_cons.1 h).resolve_right hin.2
        subst this
        exact .inr ⟨_, .cons hb hp, fun x hx => hx, by simpa using hin.1⟩

/-- The dominators of a block form a chain. -/
theorem dom_chain {b : Body} {c d m : Nat} (h1 : Dominates b.succ c m) (h2 : Dominates b.succ d m) :
    Dominates b.succ c d ∨ Dominates b.succ d c := by
  obtain ⟨l, hl⟩ := h1.1.path
  rcases last_of_two (d := d) hl (.inl (h1.2 l hl)) with ⟨l', hl', _, hd⟩ | ⟨l', hl', _, hc⟩
  · refine .inr ⟨(dom_reach h1).2, fun p hp => ?_⟩
    rcases List.mem_append.1 (h2.2 _ (hp.append hl')) with h | h
    · exact h
    · exact absurd h hd
  · refine .inl ⟨(dom_reach h2).2, fun p hp => ?_⟩
    rcases List.mem_append.1 (h1.2 _ (hp.append hl')) with h | h
    · exact h
    · exact absurd h hc

theorem isFalseEdge_iff (b : Body) (c : Nat) : isFalseEdge b c = true ↔ EndsInFalseEdge b c := by
  unfold isFalseEdge EndsInFalseEdge
  split
  · rename_i r i h; simp [h]
  · rename_i h
    constructor
    · intro h'; exact absurd h' (by simp)
    · rintro ⟨r, i, h'⟩; exact absurd h' (h r i)

theorem dom_antisymm {b : Body} {c d : Nat} (h1 : Dominates b.succ c d) (h2 : Dominates b.succ d c) : c = d :=
  dominance_antisymm h1.1 h1.2 h2.2

/-- The candidates the code computes are the blocks after the branch. -/
theorem mem_cands {b : Body} (hv : Valid b) (hret : b.returns ≠ []) {root most : Nat}
    (hm : Dominates b.succ root most)
    (hall : ∀ x, Dominates b.succ root x → PostDominates b.succ b.returns x most) (c : Nat) :
    c ∈ ((dfs b.succ b.length root).filter (fun t => dominates b.succ b.length root t)).filter
        (fun c => !decide (c = root) && !isFalseEdge b c && dominates b.succ b.length c most) ↔
      After b root c := by
  rw [List.mem_filter, mem_region hv, Bool.and_eq_true, Bool.and_eq_true, dominates_iff hv]
  have hroot : Dominates b.succ root root := ⟨(dom_reach hm).2, fun l hl => hl.last_mem⟩
  constructor
  · rintro ⟨hr, ⟨h1, h2⟩, h3⟩
    have h1 : c ≠ root := by simpa using h1
    refine ⟨h1, hr, ?_, post_of_dom h1 hr h3 (hall _ hroot)⟩
    rw [← isFalseEdge_iff]
    simpa using h2
  · intro h
    refine ⟨h.dominated, ⟨by simpa using h.ne, ?_⟩, dom_of_post hret hm h.post (hall _ h.dominated) (hall _ hm)⟩
    have := h.real
    rw [← isFalseEdge_iff] at this
    simpa using this

theorem most_iff {b : Body} (hv : Valid b) (root : Nat) (m : Nat) (hm : Dominates b.succ root m) :
    ((dfs b.succ b.length root).filter (fun t => dominates b.succ b.length root t)).all
      (fun x => isPostdominatedBy b.succ b.length b.returns x m) = true ↔
    ∀ x, Dominates b.succ root x → PostDominates b.succ b.returns x m := by
  rw [List.all_eq_true]
  constructor
  · intro h x hx
    exact (C37_postdominates (succ_lt hv) _ (dom_lt hv hx).1 (dom_lt hv hm).1).1 (h x ((mem_region hv _ _).2 hx))
  · intro h x hx
    have hx := (mem_region hv _ _).1 hx
    exact (C37_postdominates (succ_lt hv) _ (dom_lt hv hx).1 (dom_lt hv hm).1).2 (h x hx)

/-- The join point of a branch: when all the blocks dominated by the branch come together, it is the first
of the blocks after the branch that do not end in a false edge; otherwise there is none. -/
theorem C68_join {b : Body} (hv : Valid b) (hret : b.returns ≠ []) (root j : Nat) :
    leastPostDominator b root = some j ↔
      ComesTogether b root ∧ After b root j ∧ ∀ c, After b root c → Dominates b.succ j c := by
  unfold leastPostDominator
  dsimp only
  constructor
  · intro h
    split at h
    · exact absurd h (by simp)
    · rename_i most hmost
      have hm := (mem_region hv _ _).1 (List.mem_of_find?_eq_some hmost)
      have hall := (most_iff hv root most hm).1 (by have := List.find?_some hmost; exact this)
      have hmem := (mem_cands hv hret hm hall j).1 (List.mem_of_find?_eq_some h)
      refine ⟨⟨most, hm, hall⟩, hmem, fun c hc => ?_⟩
      have := List.find?_some h
      rw [List.all_eq_true] at this
      exact (dominates_iff hv).1 (this c ((mem_cands hv hret hm hall c).2 hc))
  · rintro ⟨⟨m, hm, hall⟩, hj, hmin⟩
    split
    · rename_i hnone
      exact absurd ((most_iff hv root m hm).2 hall) (List.find?_eq_none.1 hnone m ((mem_region hv _ _).2 hm))
    · rename_i most hmost
      have hm := (mem_region hv _ _).1 (List.mem_of_find?_eq_some hmost)
      have hall := (most_iff hv root most hm).1 (by have := List.find?_some hmost; exact this)
      have hp : ∀ x, (x ∈ ((dfs b.succ b.length root).filter (fun t => dominates b.succ b.length root t)).filter
          (fun c => !decide (c = root) && !isFalseEdge b c && dominates b.succ b.length c most)) ↔ _ :=
        mem_cands hv hret hm hall
      generalize ((dfs b.succ b.length root).filter (fun t => dominates b.succ b.length root t)).filter
        (fun c => !decide (c = root) && !isFalseEdge b c && dominates b.succ b.length c most) = cands at hp
      have hgood : cands.all (fun x => dominates b.succ b.length j x) = true := by
        rw [List.all_eq_true]
        intro x hx
        exact (dominates_iff hv).2 (hmin x ((hp x).1 hx))
      cases hf : cands.find? (fun c => cands.all (fun x => dominates b.succ b.length c x)) with
      | none => exact absurd hgood (List.find?_eq_none.1 hf j ((hp j).2 hj))
      | some c =>
        have h1 := List.mem_of_find?_eq_some hf
        have h2 := List.find?_some hf
        rw [List.all_eq_true] at h2
        have h3 := (dominates_iff hv).1 (h2 j ((hp j).2 hj))
        rw [dom_antisymm h3 (hmin c ((hp c).1 h1))]

theorem exists_first {α : Type} (R : α → α → Prop) (hrefl : ∀ x, R x x) (htrans : ∀ x y z, R x y → R y z → R x z)
    (l : List α) (htot : ∀ x ∈ l, ∀ y ∈ l, R x y ∨ R y x) (hne : l ≠ []) : ∃ x ∈ l, ∀ y ∈ l, R x y := by
  induction l with
  | nil => exact absurd rfl hne
  | cons a r ih =>
    by_cases hr : r = []
    · subst hr
      exact ⟨a, by simp, by simpa using hrefl a⟩
    · obtain ⟨x, hx, hmin⟩ := ih (fun x hx y hy => htot x (List.mem_cons_of_mem _ hx) y (List.mem_cons_of_mem _ hy)) hr
      rcases htot a List.mem_cons_self x (List.mem_cons_of_mem _ hx) with h | h
      · refine ⟨a, by simp, fun y hy => ?_⟩
        rcases List.mem_cons.1 hy with rfl | hy
        · exact hrefl _
        · exact htrans _ _ _ h (hmin y hy)
      · refine ⟨x, List.mem_cons_of_mem _ hx, fun y hy => ?_⟩
        rcases List.mem_cons.1 hy with rfl | hy
        · exact h
        · exact hmin y hy

theorem dom_trans {b : Body} {x y z : Nat} (h1 : Dominates b.succ x y) (h2 : Dominates b.succ y z) :
    Dominates b.succ x z := by
  refine ⟨h2.1, fun l hl => ?_⟩
  obtain ⟨l1, _, hp, _, _, hs, _⟩ := hl.split (h2.2 l hl)
  exact hs _ (h1.2 _ hp)

/-- There is a join point exactly when the dominated blocks come together and some block is after the branch. -/
theorem C68_exists {b : Body} (hv : Valid b) (hret : b.returns ≠ []) (root : Nat) :
    (∃ j, leastPostDominator b root = some j) ↔ ComesTogether b root ∧ ∃ c, After b root c := by
  constructor
  · rintro ⟨j, hj⟩
    obtain ⟨h1, h2, _⟩ := (C68_join hv hret root j).1 hj
    exact ⟨h1, j, h2⟩
  · rintro ⟨⟨m, hm, hall⟩, c, hc⟩
    have hp := mem_cands hv hret hm hall
    generalize ((dfs b.succ b.length root).filter (fun t => dominates b.succ b.length root t)).filter
        (fun c => !decide (c = root) && !isFalseEdge b c && dominates b.succ b.length c m) = cands at hp
    have hdm : ∀ x ∈ cands, Dominates b.succ x m := fun x hx => by
      have hx := (hp x).1 hx
      exact dom_of_post hret hm hx.post (hall _ hx.dominated) (hall _ hm)
    obtain ⟨j, hj, hmin⟩ := exists_first (fun x y => x = y ∨ Dominates b.succ x y) (fun _ => .inl rfl)
      (by
        rintro x y z (h | h) (h' | h')
        · exact .inl (h.trans h')
        · exact .inr (h ▸ h')
        · exact .inr (h' ▸ h)
        · exact .inr (dom_trans h h'))
      cands (fun x hx y hy => by
        rcases dom_chain (hdm x hx) (hdm y hy) with h | h
        · exact .inl (.inr h)
        · exact .inr (.inr h))
      (by
        intro h
        have := (hp c).2 hc
        rw [h] at this
        exact absurd this (by simp))
    refine ⟨j, (C68_join hv hret root j).2 ⟨⟨m, hm, hall⟩, (hp j).1 hj, fun c hc => ?_⟩⟩
    rcases hmin c ((hp c).2 hc) with h | h
    · subst h
      exact ⟨(dom_reach (hdm j hj)).2, fun l hl => hl.last_mem⟩
    · exact h

/-- Dominance of locations. -/
theorem C68_before {b : Body} (hv : Valid b) (d l : Loc) :
    b.mapper.ldom d l = true ↔
      (d.block = l.block ∧ d.idx ≤ l.idx) ∨ (d.block ≠ l.block ∧ Dominates b.succ d.block l.block) := by
  change ldominates b d l = true ↔ _
  unfold ldominates
  split
  · rename_i h; simp [h]
  · rename_i h; simp [h, dominates_iff hv]

/-- Post-dominance of locations. -/
theorem C68_after {b : Body} (hv : Valid b) (d l : Loc) (hd : d.block < b.length) (hl : l.block < b.length) :
    b.mapper.lpdom d l = true ↔
      (d.block = l.block ∧ l.idx ≤ d.idx) ∨
      (d.block ≠ l.block ∧ PostDominates b.succ b.returns l.block d.block) := by
  change lpostDominates b d l = true ↔ _
  unfold lpostDominates
  split
  · rename_i h; simp [h]
  · rename_i h; simp [h, C37_postdominates (succ_lt hv) _ hl hd]

/-! ## Cases -/

theorem valid_of {b : Body} (h : 0 < b.length)
    (h' : b.all (fun d => !d.cleanup && d.term.targets.all (fun t => decide (t < b.length))) = true) : Valid b := by
  rw [List.all_eq_true] at h'
  refine ⟨?_, ?_, h⟩
  · rintro a t ⟨d, hd, ht⟩
    have := h' d (List.mem_of_getElem? hd)
    rw [Bool.and_eq_true, List.all_eq_true] at this
    simpa using this.2 t ht
  · intro a d t e hd hc
    have := h' d (List.mem_of_getElem? hd)
    rw [hc] at this
    simp at this

theorem valid_nestedIf : Valid nestedIf := valid_of (by decide) (by decide)
theorem valid_ifBody : Valid ifBody := valid_of (by decide) (by decide)

example : leastPostDominator ifBody 0 = some 3 ∧ leastPostDominator nestedIf 0 = some 2 := by decide +kernel

example : ComesTogether ifBody 0 ∧ After ifBody 0 3 :=
  let h := (C68_join valid_ifBody (by decide) 0 3).1 (by decide +kernel)
  ⟨h.1, h.2.1⟩

/-- Block 3 ends in a false edge: the join point is the block behind it. -/
def falseEdgeBody : Body :=
  [⟨2, .switchInt [1, 2], false⟩, ⟨1, .goto 3, false⟩, ⟨1, .goto 3, false⟩, ⟨0, .falseEdge 4 4, false⟩,
   ⟨1, .ret, false⟩]

example : leastPostDominator falseEdgeBody 0 = some 4 := by decide +kernel

/-- When two branches share their join block, the inner one has no join point, although every way from it
to the exit passes that block. -/
theorem C68_shared : PostDominates nestedIf.succ nestedIf.returns 1 2 ∧ leastPostDominator nestedIf 1 = none ∧
    ¬ ComesTogether nestedIf 1 := by
  have hp : PostDominates nestedIf.succ nestedIf.returns 1 2 :=
    (C37_postdominates (succ_lt valid_nestedIf) _ (by decide) (by decide)).1 (by decide +kernel)
  refine ⟨hp, by decide +kernel, ?_⟩
  rintro ⟨m, hm, hall⟩
  have hm' := (dominates_iff valid_nestedIf).2 hm
  have h1 := hall 1 ((dominates_iff valid_nestedIf).1 (by decide +kernel))
  have h1' := (C37_postdominates (succ_lt valid_nestedIf) _ (by decide) (dom_lt valid_nestedIf hm).1).2 h1
  have h3 := hall 3 ((dominates_iff valid_nestedIf).1 (by decide +kernel))
  have h3' := (C37_postdominates (succ_lt valid_nestedIf) _ (by decide) (dom_lt valid_nestedIf hm).1).2 h3
  have hlt : m < 4 := (dom_lt valid_nestedIf hm).1
  have : ∀ m < 4, ¬ (dominates nestedIf.succ nestedIf.length 1 m = true ∧
      isPostdominatedBy nestedIf.succ nestedIf.length nestedIf.returns 1 m = true ∧
      isPostdominatedBy nestedIf.succ nestedIf.length nestedIf.returns 3 m = true) := by decide +kernel
  exact this m hlt ⟨hm', h1', h3'⟩

end Verif.Segments
