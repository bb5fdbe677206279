import Verif.Cfg.Props
/-!
# C63: the exit of a node in a function that never returns

`C63_exit_partial` is about functions that return.  In the others the exit is in the block the hash map gives first, so it
is the same for every order exactly if the node lies in one block.
-/
namespace Verif.Cfg

open Verif.Graph

theorem pushIdx_head (m : List (Nat × List Nat)) (bb i : Nat) :
    ((pushIdx m bb i).map (·.1)).head? = some ((m.map (·.1)).headD bb) := by
  cases m with
  | nil => rfl
  | cons e r =>
    obtain ⟨k, v⟩ := e
    simp only [pushIdx]
    split <;> rfl

theorem fold_head (b : Body) (locs : List Loc) (m : List (Nat × List Nat)) :
    (((locs.filter (fun l => !b.isFalseLocation l)).foldl
      (fun acc l => if b.isBlockUnreachable l.block then acc else pushIdx acc l.block l.idx) m).map (·.1)).head? =
    ((m.map (·.1)).head?).or (((locs.filter (realB b)).head?).map (·.block)) := by
  induction locs generalizing m with
  | nil => simp
  | cons l r ih =>
    by_cases h1 : b.isFalseLocation l = true
    · have : realB b l = false := by simp [realB, h1]
      simp only [List.filter_cons, h1, this, Bool.not_true, Bool.false_eq_true, if_false]
      exact ih m
    · simp only [Bool.not_eq_true] at h1
      by_cases h2 : b.isBlockUnreachable l.block = true
      · have : realB b l = false := by simp [realB, h2]
        simp only [List.filter_cons, h1, this, Bool.not_false, if_true, List.foldl_cons, h2,
          Bool.false_eq_true, if_false]
        exact ih m
      · simp only [Bool.not_eq_true] at h2
        have : realB b l = true := by simp [realB, h1, h2]
        simp only [List.filter_cons, h1, this, Bool.not_false, if_true, List.foldl_cons, h2,
          Bool.false_eq_true, if_false]
        rw [ih, pushIdx_head]
        cases m <;> rfl

/-- In a function without returns the exit lies in the block of the first real location. -/
theorem exit_first {b : Body} (hret : b.returns = []) {locs : List Loc} (hl : ∀ l ∈ locs, l.block < b.length)
    {o : Ordered} (h : b.mirLocations locs = some o) :
    o.exitBlock = ((locs.filter (realB b)).head?).map (·.block) := by
  unfold Body.mirLocations at h
  split at h
  · exact absurd h (by simp)
  · simp only [Option.some.injEq] at h
    subst h
    dsimp only
    have hk : ((b.locationMap locs).map (·.1)).head? = ((locs.filter (realB b)).head?).map (·.block) := by
      unfold Body.locationMap
      rw [List.map_map]
      exact (fold_head b locs []).trans (by simp)
    rw [← hk, hret]
    obtain ⟨hp, _, hne⟩ := locationMap_spec b locs
    have hlt : ∀ x ∈ (b.locationMap locs).map (·.1), x < b.length := by
      intro x hx
      obtain ⟨l, h1, rfl⟩ := (mem_blocks (fun e he => (hne e he).1) _).1 hx
      exact hl l (List.mem_filter.1 (hp.mem_iff.1 h1)).1
    cases hb : (b.locationMap locs).map (·.1) with
    | nil => rfl
    | cons k r =>
      rw [hb] at hlt
      rw [List.find?_cons]
      have : ((k :: r).all fun x => isPostdominatedBy b.succ b.length [] x k) = true := by
        rw [List.all_eq_true]
        exact fun x _ => C37_no_exits (hlt k (by simp))
      rw [this]
      rfl

/-- In a function that never returns, the exit of a node is the same for every order exactly if all its locations are in
one block. -/
theorem C63_exit_iff {b : Body} (hv : Valid b) (hret : b.returns = []) {locs : List Loc}
    (hl : ∀ l ∈ locs, l.block < b.length) :
    (∀ locs', locs.Perm locs' → ∀ o o', b.mirLocations locs = some o → b.mirLocations locs' = some o' →
        o.exitLocation = o'.exitLocation) ↔
      ∀ x ∈ locs, ∀ y ∈ locs, RealLoc b x → RealLoc b y → x.block = y.block := by
  have hsome : ∀ l : List Loc, l ≠ [] → ∃ o, b.mirLocations l = some o := by
    intro l hne
    cases ho : b.mirLocations l with
    | none => exact absurd ((C39_none b l).1 ho) hne
    | some o => exact ⟨o, rfl⟩
  have hfirst : ∀ x ∈ locs, RealLoc b x → ∃ locs', locs.Perm locs' ∧ ∀ o, b.mirLocations locs' = some o →
      o.exitLocation.map (·.block) = some x.block := by
    intro x hx hr
    have hp := List.perm_cons_erase hx
    refine ⟨x :: locs.erase x, hp, fun o ho => ?_⟩
    have hl' : ∀ l ∈ x :: locs.erase x, l.block < b.length := fun l h => hl l (hp.mem_iff.2 h)
    have he := exit_first hret hl' ho
    rw [List.filter_cons, (real_iff (hl x hx)).2 hr] at he
    simp only [if_true, List.head?_cons, Option.map_some] at he
    obtain ⟨_, i, h1, _⟩ := C39_exit hv hl' ho he
    rw [h1]; rfl
  constructor
  · intro h x hx y hy hrx hry
    obtain ⟨l1, hp1, h1⟩ := hfirst x hx hrx
    obtain ⟨l2, hp2, h2⟩ := hfirst y hy hry
    have hne : ∀ l : List Loc, locs.Perm l → l ≠ [] := by
      rintro l hp rfl
      rw [hp.eq_nil] at hx
      simp at hx
    obtain ⟨o, ho⟩ := hsome locs (hne _ (.refl _))
    obtain ⟨o1, ho1⟩ := hsome l1 (hne _ hp1)
    obtain ⟨o2, ho2⟩ := hsome l2 (hne _ hp2)
    have e1 := h1 o1 ho1
    have e2 := h2 o2 ho2
    rw [← h l1 hp1 o o1 ho ho1] at e1
    rw [← h l2 hp2 o o2 ho ho2] at e2
    rw [e1] at e2
    simpa using e2
  · intro h locs' hp o o' ho ho'
    have hl' : ∀ l ∈ locs', l.block < b.length := fun l hm => hl l (hp.mem_iff.2 hm)
    have hvm := values_perm_mem ho ho' (fun l => hp.mem_iff) hl
    have hval := (C39_values ho hl).2
    have key : o.exitBlock = o'.exitBlock := by
      rw [exit_first hret hl ho, exit_first hret hl' ho']
      have hpf := hp.filter (realB b)
      cases h1 : locs.filter (realB b) with
      | nil =>
        rw [h1] at hpf
        rw [hpf.symm.eq_nil]
      | cons x r =>
        cases h2 : locs'.filter (realB b) with
        | nil =>
          rw [h2] at hpf
          rw [hpf.eq_nil] at h1
          exact absurd h1 (by simp)
        | cons y s =>
          have hx := List.mem_filter.1 (show x ∈ locs.filter (realB b) by rw [h1]; simp)
          have hy := List.mem_filter.1 (hpf.mem_iff.2 (show y ∈ locs'.filter (realB b) by rw [h2]; simp))
          simp only [List.head?_cons, Option.map_some, Option.some.injEq]
          exact h x hx.1 y hy.1 ((real_iff (hl x hx.1)).1 hx.2) ((real_iff (hl y hy.1)).1 hy.2)
    cases he : o.exitBlock with
    | none => simp only [Ordered.exitLocation, ← key, he]
    | some e =>
      obtain ⟨_, i, h1, h2, h3⟩ := C39_exit hv hl ho he
      obtain ⟨_, i', h1', h2', h3'⟩ := C39_exit hv hl' ho' (key ▸ he)
      have a := h3 i' ((hvm _).2 h2')
      have b := h3' i ((hvm _).1 h2)
      have : i = i' := by omega
      rw [h1, h1', this]

/-- `loop { … }` over two blocks, in one block of which the node lies. -/
example : let b : Body := [⟨1, .goto 1, false⟩, ⟨1, .goto 0, false⟩]
    b.returns = [] ∧ (b.mirLocations [⟨1, 0⟩, ⟨1, 1⟩]).map (·.exitLocation) = some (some ⟨1, 1⟩) ∧
    (b.mirLocations [⟨1, 1⟩, ⟨1, 0⟩]).map (·.exitLocation) = some (some ⟨1, 1⟩) := by decide

end Verif.Cfg
