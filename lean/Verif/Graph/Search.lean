/-!
# Depth-first search

rustc's `depth_first_search` (`rustc_data_structures::graph::iterate`), which the region flow analysis
and the dominator computations call: a stack and a set of visited nodes; popping a node yields it and
pushes its successors that are visited for the first time.
-/
namespace Verif.Graph

/-- The successors visited for the first time, in order (`visited.insert` in the filter). -/
def fresh (visited : List Nat) : List Nat → List Nat
  | [] => []
  | m :: r => if m ∈ visited then fresh visited r else m :: fresh (m :: visited) r

/-- The nodes yielded.  Fuel: one per yielded node. -/
def dfsLoop (succ : Nat → List Nat) : Nat → List Nat → List Nat → List Nat
  | 0, _, _ => []
  | _ + 1, [], _ => []
  | f + 1, n :: stack, visited =>
    let new := fresh visited (succ n)
    n :: dfsLoop succ f (new.reverse ++ stack) (new ++ visited)

/-- `depth_first_search(graph, start)` on a graph whose nodes are the numbers below `n`. -/
def dfs (succ : Nat → List Nat) (n start : Nat) : List Nat := dfsLoop succ n [start] [start]

/-- `b` can be reached from `a` by following edges. -/
inductive Reach (succ : Nat → List Nat) (a : Nat) : Nat → Prop
  | refl : Reach succ a a
  | tail {b c} : Reach succ a b → c ∈ succ b → Reach succ a c

theorem Reach.trans {succ : Nat → List Nat} {a b c : Nat} (h1 : Reach succ a b) (h2 : Reach succ b c) :
    Reach succ a c := by
  induction h2 with
  | refl => exact h1
  | tail _ h ih => exact .tail ih h

theorem Reach.single {succ : Nat → List Nat} {a b : Nat} (h : b ∈ succ a) : Reach succ a b := .tail .refl h

theorem Reach.head {succ : Nat → List Nat} {a b c : Nat} (h : b ∈ succ a) (h2 : Reach succ b c) :
    Reach succ a c := (Reach.single h).trans h2

theorem mem_fresh {visited l : List Nat} {x : Nat} : x ∈ fresh visited l ↔ x ∈ l ∧ x ∉ visited := by
  induction l generalizing visited with
  | nil => simp [fresh]
  | cons m r ih =>
    simp only [fresh]
    split
    · rw [ih]; grind
    · simp only [List.mem_cons, ih]; grind

theorem fresh_nodup {visited l : List Nat} : (fresh visited l).Nodup := by
  induction l generalizing visited with
  | nil => simp [fresh]
  | cons m r ih =>
    simp only [fresh]
    split
    · exact ih
    · rw [List.nodup_cons]
      refine ⟨?_, ih⟩
      rw [mem_fresh]; simp

theorem nodup_bound {n : Nat} {l : List Nat} (hn : l.Nodup) (hb : ∀ x ∈ l, x < n) : l.length ≤ n := by
  have : ∀ (m : List Nat) (l : List Nat), l.Nodup → (∀ x ∈ l, x ∈ m) → l.length ≤ m.length := by
    intro m
    induction m with
    | nil =>
      intro l _ h
      cases l with
      | nil => simp
      | cons a l => exact absurd (h a (by simp)) (by simp)
    | cons a m ih =>
      intro l hl h
      by_cases ha : a ∈ l
      · have h1 := ih (l.erase a) (hl.erase a) (by
          intro x hx
          have hx' := (hl.mem_erase_iff).1 hx
          rcases List.mem_cons.1 (h x hx'.2) with rfl | h'
          · exact absurd rfl hx'.1
          · exact h')
        rw [List.length_erase_of_mem ha] at h1
        simp only [List.length_cons]
        omega
      · have := ih l hl (fun x hx => by
          rcases List.mem_cons.1 (h x hx) with rfl | h'
          · exact absurd hx ha
          · exact h')
        simp only [List.length_cons]; omega
  have := this (List.range n) l hn (fun x hx => by simpa using hb x hx)
  simpa using this

theorem dfsLoop_spec {succ : Nat → List Nat} {n : Nat} (hsucc : ∀ a, a < n → ∀ b ∈ succ a, b < n)
    (fuel : Nat) (P stack visited : List Nat)
    (hv : ∀ x, x ∈ visited ↔ x ∈ P ∨ x ∈ stack) (hnd : visited.Nodup)
    (hbound : ∀ x ∈ visited, x < n) (hclosed : ∀ p ∈ P, ∀ q ∈ succ p, q ∈ visited)
    (hfuel : (n - visited.length) + stack.length ≤ fuel) :
    (∀ x ∈ stack, x ∈ dfsLoop succ fuel stack visited) ∧
    (∀ p, p ∈ P ∨ p ∈ dfsLoop succ fuel stack visited → ∀ q ∈ succ p,
      q ∈ P ∨ q ∈ dfsLoop succ fuel stack visited) ∧
    (∀ x ∈ dfsLoop succ fuel stack visited, ∃ s ∈ stack, Reach succ s x) := by
  induction fuel generalizing P stack visited with
  | zero =>
    have hs : stack = [] := List.length_eq_zero_iff.1 (by omega)
    subst hs
    refine ⟨by simp, ?_, by simp [dfsLoop]⟩
    intro p hp q hq
    simp only [dfsLoop, List.not_mem_nil, or_false] at hp ⊢
    simpa [hv] using hclosed p hp q hq
  | succ fuel ih =>
    cases stack with
    | nil =>
      refine ⟨by simp, ?_, by simp [dfsLoop]⟩
      intro p hp q hq
      simp only [dfsLoop, List.not_mem_nil, or_false] at hp ⊢
      simpa [hv] using hclosed p hp q hq
    | cons a stack =>
      have ha : a < n := hbound a ((hv a).2 (.inr (by simp)))
      have hnd' : (fresh visited (succ a) ++ visited).Nodup := by
        rw [List.nodup_append]
        refine ⟨fresh_nodup, hnd, ?_⟩
        intro x hx y hy hxy
        subst hxy
        exact (mem_fresh.1 hx).2 hy
      have hb' : ∀ x ∈ fresh visited (succ a) ++ visited, x < n := by
        intro x hx
        rcases List.mem_append.1 hx with hx | hx
        · exact hsucc a ha x (mem_fresh.1 hx).1
        · exact hbound x hx
      have hlen := nodup_bound hnd' hb'
      obtain ⟨h1, h2, h3⟩ := ih (a :: P) ((fresh visited (succ a)).reverse ++ stack)
        (fresh visited (succ a) ++ visited)
        (by intro x; simp only [List.mem_append, List.mem_reverse, List.mem_cons, hv]; grind)
        hnd' hb'
        (by
          intro p hp q hq
          rcases List.mem_cons.1 hp with rfl | hp
          · by_cases hqv : q ∈ visited
            · exact List.mem_append_right _ hqv
            · exact List.mem_append_left _ (mem_fresh.2 ⟨hq, hqv⟩)
          · exact List.mem_append_right _ (hclosed p hp q hq))
        (by
          simp only [List.length_append, List.length_reverse, List.length_cons] at hlen hfuel ⊢
          omega)
      simp only [dfsLoop]
      refine ⟨?_, ?_, ?_⟩
      · intro x hx
        rcases List.mem_cons.1 hx with rfl | hx
        · simp
        · exact List.mem_cons_of_mem _ (h1 x (by simp [hx]))
      · intro p hp q hq
        have := h2 p (by rcases hp with hp | hp
                         · exact .inl (by simp [hp])
                         · rcases List.mem_cons.1 hp with rfl | hp
                           · exact .inl (by simp)
                           · exact .inr hp) q hq
        rcases this with h | h
        · rcases List.mem_cons.1 h with rfl | h
          · exact .inr (by simp)
          · exact .inl h
        · exact .inr (by simp [h])
      · intro x hx
        rcases List.mem_cons.1 hx with rfl | hx
        · exact ⟨_, by simp, .refl⟩
        · obtain ⟨s, hs, hr⟩ := h3 x hx
          rcases List.mem_append.1 hs with hs | hs
          · exact ⟨a, by simp, .head (mem_fresh.1 (List.mem_reverse.1 hs)).1 hr⟩
          · exact ⟨s, by simp [hs], hr⟩

/-- The search yields exactly the reachable nodes. -/
theorem mem_dfs {succ : Nat → List Nat} {n start : Nat} (hsucc : ∀ a, a < n → ∀ b ∈ succ a, b < n)
    (hs : start < n) {x : Nat} : x ∈ dfs succ n start ↔ Reach succ start x := by
  obtain ⟨h1, h2, h3⟩ := dfsLoop_spec hsucc n [] [start] [start] (by simp) (by simp) (by simpa using hs)
    (by simp) (by simp; omega)
  unfold dfs
  constructor
  · intro hx
    obtain ⟨s, hs', hr⟩ := h3 x hx
    simp only [List.mem_singleton] at hs'
    subst hs'; exact hr
  · intro hx
    induction hx with
    | refl => exact h1 start (by simp)
    | tail _ hc ih => simpa using h2 _ (.inr ih) _ hc

end Verif.Graph
