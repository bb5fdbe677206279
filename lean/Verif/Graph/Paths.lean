import Verif.Graph.Search
/-!
# Paths and dominance

`Path` is the independent notion; `through` decides "every path from `a` to `e` passes `d`" by searching
the graph without `d`, which is how the external dominator computations of rustc are represented.
-/
namespace Verif.Graph

/-- `l` is the list of nodes of a path from the first index to the second. -/
inductive Path (succ : Nat → List Nat) : Nat → Nat → List Nat → Prop
  | single (a : Nat) : Path succ a a [a]
  | cons {a b c : Nat} {l : List Nat} : b ∈ succ a → Path succ b c l → Path succ a c (a :: l)

theorem Path.append {succ : Nat → List Nat} {a b c : Nat} {l m : List Nat} (h1 : Path succ a b l)
    (h2 : Path succ b c m) : Path succ a c (l ++ m.tail) := by
  induction h1 with
  | single a => cases h2 <;> simpa using by first | exact .single _ | (constructor <;> assumption)
  | cons hb _ ih => exact .cons hb (ih h2)

theorem Path.reach {succ : Nat → List Nat} {a b : Nat} {l : List Nat} (h : Path succ a b l) :
    Reach succ a b := by
  induction h with
  | single => exact .refl
  | cons hb _ ih => exact .head hb ih

theorem Reach.path {succ : Nat → List Nat} {a b : Nat} (h : Reach succ a b) : ∃ l, Path succ a b l := by
  induction h with
  | refl => exact ⟨[a], .single a⟩
  | tail _ hc ih =>
    obtain ⟨l, hl⟩ := ih
    exact ⟨_, hl.append (.cons hc (.single _))⟩

theorem Path.head_mem {succ : Nat → List Nat} {a b : Nat} {l : List Nat} (h : Path succ a b l) : a ∈ l := by
  cases h <;> simp

theorem Path.last_mem {succ : Nat → List Nat} {a b : Nat} {l : List Nat} (h : Path succ a b l) : b ∈ l := by
  induction h with
  | single => simp
  | cons _ _ ih => simp [ih]

/-- A path through `d` splits at `d`. -/
theorem Path.split {succ : Nat → List Nat} {a b d : Nat} {l : List Nat} (h : Path succ a b l) (hd : d ∈ l) :
    ∃ l1 l2, Path succ a d l1 ∧ Path succ d b l2 ∧ l1.length + l2.length = l.length + 1 ∧
      (∀ x ∈ l1, x ∈ l) ∧ (∀ x ∈ l2, x ∈ l) := by
  induction h with
  | single a =>
    simp only [List.mem_singleton] at hd
    subst hd
    exact ⟨[d], [d], .single d, .single d, by simp, by simp, by simp⟩
  | @cons a b' c l hb hp ih =>
    by_cases had : d = a
    · subst had
      exact ⟨[d], d :: l, .single d, .cons hb hp, by simp; omega, by simp, by simp⟩
    · have hdl : d ∈ l := by
        rcases List.mem_cons.1 hd with h | h
        · exact absurd h had
        · exact h
      obtain ⟨l1, l2, h1, h2, h3, h4, h5⟩ := ih hdl
      refine ⟨a :: l1, l2, .cons hb h1, h2, by simp only [List.length_cons]; omega, ?_, ?_⟩
      · intro x hx
        rcases List.mem_cons.1 hx with rfl | hx
        · simp
        · simp [h4 x hx]
      · intro x hx; simp [h5 x hx]

/-- The graph without the edges into `d`. -/
def avoid (succ : Nat → List Nat) (d : Nat) (a : Nat) : List Nat := (succ a).filter (fun b => b != d)

/-- Every path from `a` to `e` passes `d`, on a graph with nodes below `n`. -/
def through (succ : Nat → List Nat) (n a e d : Nat) : Bool :=
  a == d || !decide (e ∈ dfs (avoid succ d) n a)

theorem avoid_path {succ : Nat → List Nat} {d a e : Nat} {l : List Nat} (h : Path succ a e l) (hd : d ∉ l) :
    Path (avoid succ d) a e l := by
  induction h with
  | single a => exact .single a
  | cons hb hp ih =>
    simp only [List.mem_cons, not_or] at hd
    refine .cons ?_ (ih hd.2)
    simp only [avoid, List.mem_filter, bne_iff_ne, ne_eq]
    exact ⟨hb, fun hc => hd.2 (hc ▸ hp.head_mem)⟩

theorem path_avoid {succ : Nat → List Nat} {d a e : Nat} {l : List Nat} (h : Path (avoid succ d) a e l)
    (ha : a ≠ d) : Path succ a e l ∧ d ∉ l := by
  induction h with
  | single a => exact ⟨.single a, by simp [Ne.symm ha]⟩
  | cons hb hp ih =>
    simp only [avoid, List.mem_filter, bne_iff_ne, ne_eq] at hb
    obtain ⟨h1, h2⟩ := ih hb.2
    exact ⟨.cons hb.1 h1, by simp [Ne.symm ha, h2]⟩

theorem avoid_lt {succ : Nat → List Nat} {n : Nat} (hsucc : ∀ a, a < n → ∀ b ∈ succ a, b < n) (d : Nat) :
    ∀ a, a < n → ∀ b ∈ avoid succ d a, b < n :=
  fun a ha b hb => hsucc a ha b (List.mem_filter.1 hb).1

theorem through_iff {succ : Nat → List Nat} {n : Nat} (hsucc : ∀ a, a < n → ∀ b ∈ succ a, b < n)
    {a e d : Nat} (ha : a < n) : through succ n a e d = true ↔ ∀ l, Path succ a e l → d ∈ l := by
  unfold through
  rw [Bool.or_eq_true, beq_iff_eq, Bool.not_eq_true', decide_eq_false_iff_not,
    mem_dfs (avoid_lt hsucc d) ha]
  constructor
  · rintro (rfl | h) l hl
    · exact hl.head_mem
    · exact Classical.byContradiction fun hc => h (avoid_path hl hc).reach
  · intro h
    by_cases had : a = d
    · exact .inl had
    · refine .inr fun hr => ?_
      obtain ⟨l, hl⟩ := hr.path
      obtain ⟨h1, h2⟩ := path_avoid hl had
      exact h2 (h l h1)

/-- Two nodes that lie on all paths to each other's far end are equal: if `d` is on every path from `a` to
`e` and `e` on every path from `a` to `d`, and `e` can be reached, then `d = e`. -/
theorem dominance_antisymm {succ : Nat → List Nat} {a d e : Nat} (hr : Reach succ a e)
    (h1 : ∀ l, Path succ a e l → d ∈ l) (h2 : ∀ l, Path succ a d l → e ∈ l) : d = e := by
  apply Classical.byContradiction
  intro hne
  have key : ∀ k, ∀ l, l.length ≤ k → ¬ Path succ a e l := by
    intro k
    induction k with
    | zero =>
      intro l hk hp
      cases hp <;> simp at hk
    | succ k ih =>
      intro l hk hp
      obtain ⟨p1, p2, hp1, hp2, hlen, _, _⟩ := hp.split (h1 l hp)
      obtain ⟨q1, q2, hq1, hq2, hlen2, _, _⟩ := hp1.split (h2 p1 hp1)
      have : 2 ≤ p2.length := by
        cases hp2 with
        | single => exact absurd rfl hne
        | cons _ hx => cases hx <;> simp
      have : 2 ≤ q2.length := by
        cases hq2 with
        | single => exact absurd rfl hne
        | cons _ hx => cases hx <;> simp
      exact ih q1 (by omega) hq1
  obtain ⟨l, hl⟩ := hr.path
  exact key l.length l (Nat.le_refl _) hl

/-- The same read backwards: post-dominance is antisymmetric. -/
theorem postdominance_antisymm {succ : Nat → List Nat} {x d e : Nat} (hr : Reach succ d x)
    (h1 : ∀ l, Path succ d x l → e ∈ l) (h2 : ∀ l, Path succ e x l → d ∈ l) : d = e := by
  apply Classical.byContradiction
  intro hne
  have key : ∀ k, ∀ l, l.length ≤ k → ¬ Path succ d x l := by
    intro k
    induction k with
    | zero =>
      intro l hk hp
      cases hp <;> simp at hk
    | succ k ih =>
      intro l hk hp
      obtain ⟨p1, p2, hp1, hp2, hlen, _, _⟩ := hp.split (h1 l hp)
      obtain ⟨q1, q2, hq1, hq2, hlen2, _, _⟩ := hp2.split (h2 p2 hp2)
      have : 2 ≤ p1.length := by
        cases hp1 with
        | single => exact absurd rfl hne
        | cons _ hx => cases hx <;> simp
      have : 2 ≤ q1.length := by
        cases hq1 with
        | single => exact absurd rfl hne
        | cons _ hx => cases hx <;> simp
      exact ih q2 (by omega) hq2
  obtain ⟨l, hl⟩ := hr.path
  exact key l.length l (Nat.le_refl _) hl

end Verif.Graph
