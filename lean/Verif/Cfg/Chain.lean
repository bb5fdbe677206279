import Verif.Segments.Model
import Verif.Cfg.Props
/-!
# Functions whose control flow is a straight line

The order of locations along the line, and that the dominance tests of the mapper decide it.
-/
namespace Verif.Cfg

open Verif.Graph Verif.Segments

/-- The normal control flow of the body is one path, from the first block to the only return. -/
structure Chain (b : Body) (path : List Nat) : Prop where
  head : path[0]? = some 0
  nodup : path.Nodup
  step : ∀ (i x y : Nat), path[i]? = some x → path[i + 1]? = some y → b.succ x = [y]
  last : ∀ (i x : Nat), path[i]? = some x → path[i + 1]? = none → b.succ x = [] ∧ b.returns = [x]
  all : ∀ n, Kept b n → n ∈ path

/-- Along the path, the first location comes before the second, or is it. -/
def Before (path : List Nat) (l l' : Loc) : Prop :=
  ∃ i j : Nat, path[i]? = some l.block ∧ path[j]? = some l'.block ∧ (i < j ∨ (i = j ∧ l.idx ≤ l'.idx))

theorem pos_unique {path : List Nat} (hn : path.Nodup) {i j x : Nat} (hi : path[i]? = some x)
    (hj : path[j]? = some x) : i = j := by
  obtain ⟨h1, e1⟩ := List.getElem?_eq_some_iff.1 hi
  obtain ⟨h2, e2⟩ := List.getElem?_eq_some_iff.1 hj
  exact (List.getElem_inj hn).1 (e1.trans e2.symm)

theorem Before.refl {path : List Nat} {l : Loc} (h : l.block ∈ path) : Before path l l := by
  obtain ⟨i, hi⟩ := List.mem_iff_getElem?.1 h
  exact ⟨i, i, hi, hi, .inr ⟨rfl, Nat.le_refl _⟩⟩

theorem Before.trans {path : List Nat} (hn : path.Nodup) {x y z : Loc} (h1 : Before path x y) (h2 : Before path y z) :
    Before path x z := by
  obtain ⟨i, j, hi, hj, h⟩ := h1
  obtain ⟨j', k, hj', hk, h'⟩ := h2
  cases pos_unique hn hj hj'
  exact ⟨i, k, hi, hk, by omega⟩

theorem Before.antisymm {path : List Nat} (hn : path.Nodup) {x y : Loc} (h1 : Before path x y)
    (h2 : Before path y x) : x = y := by
  obtain ⟨i, j, hi, hj, h⟩ := h1
  obtain ⟨j', i', hj', hi', h'⟩ := h2
  cases pos_unique hn hj hj'
  cases pos_unique hn hi hi'
  have e : i = j := by omega
  subst e
  obtain ⟨xb, xi⟩ := x
  obtain ⟨yb, yi⟩ := y
  rw [hi] at hj
  simp only [Option.some.injEq] at hj
  simp only [Nat.lt_irrefl, true_and, false_or] at h h'
  rw [Loc.mk.injEq]
  exact ⟨hj, Nat.le_antisymm h h'⟩

theorem Before.total {path : List Nat} {x y : Loc} (hx : x.block ∈ path) (hy : y.block ∈ path) :
    Before path x y ∨ Before path y x := by
  obtain ⟨i, hi⟩ := List.mem_iff_getElem?.1 hx
  obtain ⟨j, hj⟩ := List.mem_iff_getElem?.1 hy
  by_cases h : i < j ∨ (i = j ∧ x.idx ≤ y.idx)
  · exact .inl ⟨i, j, hi, hj, h⟩
  · exact .inr ⟨j, i, hj, hi, by omega⟩

theorem Before.mem {path : List Nat} {x y : Loc} (h : Before path x y) : x.block ∈ path ∧ y.block ∈ path := by
  obtain ⟨i, j, hi, hj, _⟩ := h
  exact ⟨List.mem_of_getElem? hi, List.mem_of_getElem? hj⟩

variable {b : Body} {path : List Nat}

/-- From a block of the path one gets to the later ones only, through all blocks in between. -/
theorem Chain.paths (hc : Chain b path) {i a c : Nat} {l : List Nat} (hi : path[i]? = some a)
    (hp : Path b.succ a c l) :
    ∃ j, i ≤ j ∧ path[j]? = some c ∧ ∀ d, d ∈ l ↔ ∃ k : Nat, i ≤ k ∧ k ≤ j ∧ path[k]? = some d := by
  induction hp generalizing i with
  | single a =>
    refine ⟨i, Nat.le_refl _, hi, fun d => ?_⟩
    simp only [List.mem_singleton]
    constructor
    · rintro rfl; exact ⟨i, Nat.le_refl _, Nat.le_refl _, hi⟩
    · rintro ⟨k, h1, h2, h3⟩
      have : k = i := by omega
      subst this
      rw [hi] at h3
      exact (Option.some.inj h3).symm
  | @cons a x c l hx _ ih =>
    have hnext : path[i + 1]? = some x := by
      cases hn : path[i + 1]? with
      | none => rw [(hc.last i a hi hn).1] at hx; simp at hx
      | some y =>
        rw [hc.step i a y hi hn] at hx
        rw [List.mem_singleton.1 hx]
    obtain ⟨j, h1, h2, h3⟩ := ih hnext
    refine ⟨j, by omega, h2, fun d => ?_⟩
    rw [List.mem_cons, h3]
    constructor
    · rintro (rfl | ⟨k, h4, h5, h6⟩)
      · exact ⟨i, Nat.le_refl _, by omega, hi⟩
      · exact ⟨k, by omega, h5, h6⟩
    · rintro ⟨k, h4, h5, h6⟩
      by_cases hk : k = i
      · subst hk
        rw [hi] at h6
        exact .inl (Option.some.inj h6).symm
      · exact .inr ⟨k, by omega, h5, h6⟩

theorem Chain.reach (hc : Chain b path) {i a : Nat} (hi : path[i]? = some a) (n : Nat) :
    ∀ c, path[i + n]? = some c → Reach b.succ a c := by
  induction n with
  | zero =>
    intro c h
    rw [Nat.add_zero, hi] at h
    cases h
    exact .refl
  | succ n ih =>
    intro c h
    have hl := (List.getElem?_eq_some_iff.1 h).1
    have hm : path[i + n]? = some path[i + n] := List.getElem?_eq_getElem (by omega)
    refine .tail (ih _ hm) ?_
    rw [hc.step _ _ _ hm h]
    exact List.mem_singleton.2 rfl

theorem Chain.lt (hv : Valid b) (hc : Chain b path) {x : Nat} (hx : x ∈ path) : x < b.length := by
  obtain ⟨i, hi⟩ := List.mem_iff_getElem?.1 hx
  cases i with
  | zero =>
    rw [hc.head] at hi
    cases hi
    exact hv.nonempty
  | succ i =>
    have hl := (List.getElem?_eq_some_iff.1 hi).1
    have hm : path[i]? = some path[i] := List.getElem?_eq_getElem (by omega)
    have hx' : x ∈ b.succ path[i] := by rw [hc.step _ _ _ hm hi]; exact List.mem_singleton.2 rfl
    exact hv.targets _ _ ((C38_edges b _ _).1 hx').1

theorem Chain.lastIs (hc : Chain b path) : ∃ n x : Nat, path[n]? = some x ∧ path[n + 1]? = none ∧ b.returns = [x] ∧
    ∀ i y : Nat, path[i]? = some y → i ≤ n := by
  have h0 := (List.getElem?_eq_some_iff.1 hc.head).1
  have hm : path[path.length - 1]? = some path[path.length - 1] := List.getElem?_eq_getElem (by omega)
  have hn : path[path.length - 1 + 1]? = none := List.getElem?_eq_none (by omega)
  refine ⟨_, _, hm, hn, (hc.last _ _ hm hn).2, fun i y hi => ?_⟩
  have := (List.getElem?_eq_some_iff.1 hi).1
  omega

theorem Chain.dominates (hc : Chain b path) {i j x y : Nat} (hi : path[i]? = some x) (hj : path[j]? = some y) :
    Dominates b.succ x y ↔ i ≤ j := by
  constructor
  · rintro ⟨hr, h⟩
    obtain ⟨l, hl⟩ := hr.path
    obtain ⟨j', _, h2, h3⟩ := hc.paths hc.head hl
    cases pos_unique hc.nodup h2 hj
    obtain ⟨k, _, h4, h5⟩ := (h3 x).1 (h l hl)
    cases pos_unique hc.nodup h5 hi
    exact h4
  · intro h
    refine ⟨hc.reach hc.head j y (by simpa using hj), fun l hl => ?_⟩
    obtain ⟨j', _, h2, h3⟩ := hc.paths hc.head hl
    cases pos_unique hc.nodup h2 hj
    exact (h3 x).2 ⟨i, Nat.zero_le _, h, hi⟩

theorem Chain.postDominates (hc : Chain b path) {i j x y : Nat} (hi : path[i]? = some x) (hj : path[j]? = some y) :
    PostDominates b.succ b.returns x y ↔ i ≤ j := by
  obtain ⟨n, z, hn, _, hr, hle⟩ := hc.lastIs
  rw [hr]
  unfold PostDominates
  simp only [List.mem_singleton, forall_eq]
  constructor
  · rintro ⟨hr, h⟩
    obtain ⟨l, hl⟩ := hr.path
    obtain ⟨_, _, _, h3⟩ := hc.paths hi hl
    obtain ⟨k, h4, _, h5⟩ := (h3 y).1 (h l hl)
    cases pos_unique hc.nodup h5 hj
    exact h4
  · intro h
    have hin := hle _ _ hi
    refine ⟨hc.reach hi (n - i) z (by rw [Nat.add_sub_cancel' hin]; exact hn), fun l hl => ?_⟩
    obtain ⟨n', _, h2, h3⟩ := hc.paths hi hl
    cases pos_unique hc.nodup h2 hn
    exact (h3 y).2 ⟨j, h, hle _ _ hj, hj⟩

theorem before_blocks (hn : path.Nodup) {l l' : Loc} {i j : Nat} (hi : path[i]? = some l.block)
    (hj : path[j]? = some l'.block) :
    Before path l l' ↔ i < j ∨ (i = j ∧ l.idx ≤ l'.idx) := by
  constructor
  · rintro ⟨i', j', h1, h2, h⟩
    cases pos_unique hn h1 hi
    cases pos_unique hn h2 hj
    exact h
  · exact fun h => ⟨i, j, hi, hj, h⟩

/-- On a line, one location dominates another if it comes before it, -/
theorem Chain.ldom (hv : Valid b) (hc : Chain b path) {l l' : Loc} (h : l.block ∈ path) (h' : l'.block ∈ path) :
    ldominates b l l' = true ↔ Before path l l' := by
  obtain ⟨i, hi⟩ := List.mem_iff_getElem?.1 h
  obtain ⟨j, hj⟩ := List.mem_iff_getElem?.1 h'
  rw [before_blocks hc.nodup hi hj]
  unfold ldominates
  split
  · rename_i he
    rw [he] at hi
    cases pos_unique hc.nodup hi hj
    simp
  · rename_i he
    rw [dominates_iff hv, hc.dominates hi hj]
    have : i ≠ j := by
      rintro rfl
      rw [hi] at hj
      exact he (Option.some.inj hj)
    omega

/-- and post-dominates it if it comes after. -/
theorem Chain.lpdom (hv : Valid b) (hc : Chain b path) {l l' : Loc} (h : l.block ∈ path) (h' : l'.block ∈ path) :
    lpostDominates b l l' = true ↔ Before path l' l := by
  obtain ⟨i, hi⟩ := List.mem_iff_getElem?.1 h
  obtain ⟨j, hj⟩ := List.mem_iff_getElem?.1 h'
  rw [before_blocks hc.nodup hj hi]
  unfold lpostDominates
  split
  · rename_i he
    rw [he] at hi
    cases pos_unique hc.nodup hi hj
    simp
  · rename_i he
    rw [C37_postdominates ?_ _ (hc.lt hv h') (hc.lt hv h), hc.postDominates hj hi]
    · have : i ≠ j := by
        rintro rfl
        rw [hi] at hj
        exact he (Option.some.inj hj)
      omega
    · intro a _ t ht
      exact hv.targets _ _ ((C38_edges b _ _).1 ht).1

/-- The location after one, or the last one itself. -/
def nextOf (b : Body) (l : Loc) : Loc := (b.locationSuccessor l).getD l

/-- Moving on to the next location keeps the order. -/
theorem Chain.next_mono (hc : Chain b path) {l l' : Loc} {d d' : Block} (hd : b[l.block]? = some d)
    (hl : l.idx ≤ d.stmts) (hd' : b[l'.block]? = some d') (hl' : l'.idx ≤ d'.stmts) (h : Before path l l') :
    Before path (nextOf b l) (nextOf b l') := by
  have key : ∀ {l : Loc} {d : Block} {i : Nat}, b[l.block]? = some d → l.idx ≤ d.stmts → path[i]? = some l.block →
      (l.idx < d.stmts ∧ nextOf b l = ⟨l.block, l.idx + 1⟩) ∨
      (l.idx = d.stmts ∧ ∃ t, path[i + 1]? = some t ∧ nextOf b l = ⟨t, 0⟩) ∨
      (l.idx = d.stmts ∧ path[i + 1]? = none ∧ nextOf b l = l) := by
    intro l d i hd hl hi
    unfold nextOf Body.locationSuccessor
    rw [hd]
    dsimp only
    by_cases h : l.idx < d.stmts
    · exact .inl ⟨h, by rw [if_pos h]; rfl⟩
    · rw [if_neg h]
      cases hn : path[i + 1]? with
      | none => exact .inr (.inr ⟨by omega, rfl, by rw [(hc.last i _ hi hn).1]; rfl⟩)
      | some t => exact .inr (.inl ⟨by omega, t, rfl, by rw [hc.step i _ t hi hn]; rfl⟩)
  obtain ⟨i, j, hi, hj, hij⟩ := h
  have hjl : i < j → ∃ t, path[i + 1]? = some t := fun h => by
    have := (List.getElem?_eq_some_iff.1 hj).1
    exact ⟨_, List.getElem?_eq_getElem (by omega)⟩
  rcases key hd hl hi with ⟨h1, e1⟩ | ⟨h1, t, ht, e1⟩ | ⟨h1, hn, e1⟩ <;>
    rcases key hd' hl' hj with ⟨h2, e2⟩ | ⟨h2, t', ht', e2⟩ | ⟨h2, hn', e2⟩ <;> rw [e1, e2]
  · exact ⟨i, j, hi, hj, by show i < j ∨ i = j ∧ l.idx + 1 ≤ l'.idx + 1; omega⟩
  · exact ⟨i, j + 1, hi, ht', .inl (by omega)⟩
  · refine ⟨i, j, hi, hj, ?_⟩
    rcases hij with h | ⟨rfl, h⟩
    · exact .inl h
    · rw [hi] at hj
      rw [Option.some.inj hj, hd'] at hd
      cases hd
      exact .inr ⟨rfl, by show l.idx + 1 ≤ l'.idx; omega⟩
  · refine ⟨i + 1, j, ht, hj, ?_⟩
    rcases hij with h | ⟨rfl, h⟩
    · show i + 1 < j ∨ i + 1 = j ∧ 0 ≤ l'.idx + 1
      omega
    · rw [hi] at hj
      rw [Option.some.inj hj, hd'] at hd
      cases hd
      omega
  · exact ⟨i + 1, j + 1, ht, ht', by show i + 1 < j + 1 ∨ i + 1 = j + 1 ∧ 0 ≤ 0; omega⟩
  · refine ⟨i + 1, j, ht, hj, ?_⟩
    rcases hij with h | ⟨rfl, h⟩
    · show i + 1 < j ∨ i + 1 = j ∧ 0 ≤ l'.idx
      omega
    · rw [hn'] at ht; simp at ht
  · rcases hij with h | ⟨rfl, h⟩
    · obtain ⟨t, ht⟩ := hjl h; rw [hn] at ht; simp at ht
    · rw [hi] at hj
      rw [Option.some.inj hj, hd'] at hd
      cases hd
      omega
  · rcases hij with h | ⟨rfl, h⟩
    · obtain ⟨t, ht⟩ := hjl h; rw [hn] at ht; simp at ht
    · rw [hn] at ht'; simp at ht'
  · rcases hij with h | ⟨rfl, h⟩
    · obtain ⟨t, ht⟩ := hjl h; rw [hn] at ht; simp at ht
    · exact ⟨i, i, hi, hj, .inr ⟨rfl, h⟩⟩

end Verif.Cfg
