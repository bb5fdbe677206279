import Verif.Walk.Model
/-!
# Regions of a control flow graph

A region is an interval of block numbers that is entered only at its first block and left only from its last one.  From
such cuts follow the dominance facts a walk asks for.
-/
namespace Verif.Walk

open Verif.Cfg Verif.Segments Verif.Graph

variable {succ : Nat → List Nat}

/-! ## Ways within a set of blocks -/

/-- There is a path whose blocks all satisfy the predicate. -/
def Via (succ : Nat → List Nat) (P : Nat → Prop) (a c : Nat) : Prop := ∃ l, Path succ a c l ∧ ∀ y ∈ l, P y

theorem Via.refl {P : Nat → Prop} {a : Nat} (h : P a) : Via succ P a a := ⟨[a], .single a, by simpa using h⟩

theorem Via.step {P : Nat → Prop} {a x c : Nat} (h : P a) (hx : x ∈ succ a) (hw : Via succ P x c) : Via succ P a c := by
  obtain ⟨l, hl, hu⟩ := hw
  refine ⟨a :: l, .cons hx hl, ?_⟩
  intro y hy
  rcases List.mem_cons.1 hy with rfl | hy
  · exact h
  · exact hu y hy

theorem Via.trans {P : Nat → Prop} {a x c : Nat} (h1 : Via succ P a x) (h2 : Via succ P x c) : Via succ P a c := by
  obtain ⟨l, hl, hu⟩ := h1
  obtain ⟨k, hk, hu'⟩ := h2
  refine ⟨_, hl.append hk, ?_⟩
  intro y hy
  rcases List.mem_append.1 hy with hy | hy
  · exact hu y hy
  · exact hu' y (List.mem_of_mem_tail hy)

theorem Via.mono {P Q : Nat → Prop} {a c : Nat} (h : Via succ P a c) (hPQ : ∀ y, P y → Q y) : Via succ Q a c := by
  obtain ⟨l, hl, hu⟩ := h
  exact ⟨l, hl, fun y hy => hPQ y (hu y hy)⟩

theorem Via.right {P : Nat → Prop} {a c : Nat} (h : Via succ P a c) : P c := by
  obtain ⟨l, hl, hu⟩ := h
  exact hu _ hl.last_mem

theorem Via.snoc {P : Nat → Prop} {a x c : Nat} (h1 : Via succ P a x) (hc : c ∈ succ x) (h : P c) : Via succ P a c :=
  h1.trans (.step h1.right hc (.refl h))

theorem Via.reach {P : Nat → Prop} {a c : Nat} (h : Via succ P a c) : Reach succ a c := by
  obtain ⟨l, hl, _⟩ := h
  exact hl.reach

/-- A way around a block shows that it does not dominate. -/
theorem Via.not_dom {x y : Nat} (h : Via succ (fun z => z ≠ x) 0 y) : ¬ Dominates succ x y := by
  obtain ⟨l, hl, hu⟩ := h
  intro hd
  exact hu x (hd.2 l hl) rfl

/-! ## Regions -/

def In (k e y : Nat) : Prop := k ≤ y ∧ y < e

structure Region (succ : Nat → List Nat) (k e : Nat) : Prop where
  pos : k < e
  /-- the region is entered at its first block -/
  inn : ∀ u v, v ∈ succ u → In k e v → ¬ In k e u → v = k
  /-- and left from its last one -/
  out : ∀ u v, v ∈ succ u → In k e u → ¬ In k e v → u = e - 1
  reach : ∀ y, In k e y → Via succ (In k e) k y
  ends : ∀ y, In k e y → Via succ (In k e) y (e - 1)
  /-- the first block is reached without passing the others -/
  root : Via succ (fun y => y ≤ k ∨ e ≤ y) 0 k
  /-- everything outside is reached without passing the region -/
  avoid : ∀ y, ¬ In k e y → Reach succ 0 y → Via succ (fun z => ¬ In k e z) 0 y

/-- A region within a region. -/
theorem Region.sub {k e k' e' : Nat} (R : Region succ k e) (hk : k < k') (he : e' ≤ e) (pos : k' < e')
    (inn : ∀ u v, v ∈ succ u → In k e u → ¬ In k' e' u → In k' e' v → v = k')
    (out : ∀ u v, v ∈ succ u → In k' e' u → ¬ In k' e' v → u = e' - 1)
    (reach : ∀ y, In k' e' y → Via succ (In k' e') k' y) (ends : ∀ y, In k' e' y → Via succ (In k' e') y (e' - 1))
    (rest : ∀ y, In k e y → ¬ In k' e' y → Via succ (fun z => In k e z ∧ ¬ In k' e' z) k y)
    (into : ∃ u, In k e u ∧ ¬ In k' e' u ∧ k' ∈ succ u) : Region succ k' e' where
  pos := pos
  inn := by
    intro u v hv h1 h2
    by_cases hu : In k e u
    · exact inn u v hv hu h2 h1
    · have := R.inn u v hv ⟨by have := h1.1; omega, by have := h1.2; omega⟩ hu
      have := h1.1
      omega
  out := out
  reach := reach
  ends := ends
  root := by
    obtain ⟨u, h1, h2, h3⟩ := into
    have ha : Via succ (fun y => y ≤ k' ∨ e' ≤ y) 0 k := R.root.mono fun y hy => by omega
    have hb : Via succ (fun y => y ≤ k' ∨ e' ≤ y) k u := (rest u h1 h2).mono fun y hy => by
      have := hy.2
      unfold In at this
      omega
    exact (ha.trans hb).snoc h3 (.inl (Nat.le_refl _))
  avoid := by
    intro y hy hr
    by_cases hin : In k e y
    · have ha : Via succ (fun z => ¬ In k' e' z) 0 k := R.root.mono fun z hz => by unfold In; omega
      exact ha.trans ((rest y hin hy).mono fun z hz => hz.2)
    · refine (R.avoid y hin hr).mono fun z hz => ?_
      unfold In at *
      omega

theorem Region.reach0 {k e : Nat} (R : Region succ k e) {y : Nat} (hy : In k e y) : Reach succ 0 y :=
  R.root.reach.trans (R.reach y hy).reach

/-- The first block of a region dominates all of it. -/
theorem Region.dom {k e : Nat} (R : Region succ k e) {y : Nat} (hy : In k e y) : Dominates succ k y := by
  refine ⟨R.reach0 hy, fun l hl => ?_⟩
  by_cases h0 : In k e 0
  · have : k = 0 := by have := h0.1; omega
    subst this
    exact hl.head_mem
  · refine Flow.leave (B := fun z => ¬ In k e z) ?_ hl h0 (fun h => h hy)
    intro p q hp hq hnq
    exact R.inn p q hq (Classical.not_not.1 hnq) hp

/-- The last block of a region is on every way out of it. -/
theorem Region.passes {k e : Nat} (R : Region succ k e) {u z : Nat} (hu : In k e u) (hz : ¬ In k e z ∨ z = e - 1)
    {l : List Nat} (hl : Path succ u z l) : e - 1 ∈ l := by
  rcases hz with hz | rfl
  · refine Flow.enter (A := fun y => ¬ In k e y) (K := fun _ => True) (fun _ _ _ _ => trivial) ?_ hl trivial
      (fun h => h hu) hz
    intro p q _ hp hq hnq
    exact R.out p q hq (Classical.not_not.1 hp) hnq
  · exact hl.last_mem

/-- A block without successors in a region is its last one. -/
theorem Region.stop {k e x : Nat} (R : Region succ k e) (hx : succ x = []) (h : In k e x) : x = e - 1 := by
  obtain ⟨l, hl, _⟩ := R.ends x h
  cases hl with
  | single => rfl
  | cons hb _ => rw [hx] at hb; cases hb

/-- The whole function: it has one exit, reached from everywhere. -/
structure Whole (b : Body) (ret : Nat) : Prop where
  valid : Valid b
  returns : b.returns = [ret]
  stop : b.succ ret = []
  exits : ∀ y, Reach b.succ 0 y → Reach b.succ y ret

theorem Whole.pdom {b : Body} {ret : Nat} (W : Whole b ret) {u d : Nat} (hu : Reach b.succ 0 u)
    (h : ∀ l, Path b.succ u ret l → d ∈ l) : PostDominates b.succ b.returns u d := by
  intro x hx
  rw [W.returns, List.mem_singleton] at hx
  subst hx
  exact ⟨W.exits u hu, h⟩

theorem Region.last_pdom {b : Body} {ret : Nat} (W : Whole b ret) {k e : Nat} (R : Region b.succ k e) {u : Nat}
    (hu : In k e u) : PostDominates b.succ b.returns u (e - 1) := by
  refine W.pdom (R.reach0 hu) fun l hl => R.passes hu ?_ hl
  by_cases hr : In k e ret
  · exact .inr (R.stop W.stop hr)
  · exact .inl hr

/-! ## Branching constructs -/

/-- A branching construct at the block `a` of the region from `k` to `e`, whose arms come together at `j`. -/
structure Branching (b : Body) (ret k a j e : Nat) : Prop where
  whole : Whole b ret
  region : Region b.succ k e
  rest : Region b.succ j e
  le : k ≤ a
  lt : a < j
  /-- everything behind the switch is entered through it -/
  enters : ∀ u v, v ∈ b.succ u → In (a + 1) e v → ¬ In (a + 1) e u → u = a
  /-- everything up to the join is left to the join -/
  leaves : ∀ u v, v ∈ b.succ u → In k j u → In k j v ∨ v = j
  before : ∀ y, In k (a + 1) y → Via b.succ (In k (y + 1)) k y
  around : ∀ c, In (a + 1) j c → ¬ EndsInFalseEdge b c → Via b.succ (fun y => y ≠ c) a j
  real : ¬ EndsInFalseEdge b j

section
variable {b : Body} {ret k a j e : Nat}

theorem Branching.mem (B : Branching b ret k a j e) : In k e a := ⟨B.le, by have := B.lt; have := B.rest.pos; omega⟩

/-- The switch is reached without passing anything behind it. -/
theorem Branching.root (B : Branching b ret k a j e) : Via b.succ (fun y => ¬ In (a + 1) e y) 0 a := by
  have hl := B.le
  have h1 : Via b.succ (fun y => ¬ In (a + 1) e y) 0 k := B.region.root.mono fun y hy => by unfold In; omega
  exact h1.trans ((B.before a ⟨hl, Nat.lt_succ_self _⟩).mono fun y hy => by unfold In at *; omega)

theorem Branching.dom (B : Branching b ret k a j e) {y : Nat} (hy : In a e y) : Dominates b.succ a y := by
  have hin : In k e y := ⟨Nat.le_trans B.le hy.1, hy.2⟩
  refine ⟨B.region.reach0 hin, fun l hl => ?_⟩
  by_cases ha : y = a
  · subst ha
    exact hl.last_mem
  · refine Flow.enter (A := In (a + 1) e) (K := fun _ => True) (fun _ _ _ _ => trivial) ?_ hl trivial ?_ ?_
    · intro p q _ hp hq hnq
      exact B.enters p q hq hnq hp
    · unfold In
      omega
    · unfold In at *
      omega

/-- Only what lies behind the switch is dominated by it. -/
theorem Branching.only (B : Branching b ret k a j e) {y : Nat} (h : Dominates b.succ a y) : In a e y := by
  apply Classical.byContradiction
  intro hn
  have hw : Via b.succ (fun z => z ≠ a) 0 y := by
    by_cases hin : In k e y
    · have hl : y < a := by unfold In at *; omega
      have h1 : Via b.succ (fun z => z ≠ a) 0 k := B.region.root.mono fun z hz => by
        have := B.le
        have := B.mem.2
        have := hin.1
        omega
      exact h1.trans ((B.before y ⟨hin.1, by omega⟩).mono fun z hz => by have := hz.2; omega)
    · refine (B.region.avoid y hin h.1).mono fun z hz => ?_
      rintro rfl
      exact hz B.mem
  exact hw.not_dom h

/-- The join is on every way from a block before it. -/
theorem Branching.pdom (B : Branching b ret k a j e) {u : Nat} (hu : In k j u) :
    PostDominates b.succ b.returns u j := by
  have hj := B.rest.pos
  refine B.whole.pdom (B.region.reach0 ⟨hu.1, by have := hu.2; omega⟩) fun l hl => ?_
  refine Flow.leave (B := In k j) ?_ hl hu ?_
  · intro p q hp hq hnq
    rcases B.leaves p q hq hp with h | h
    · exact absurd h hnq
    · exact h
  · intro hr
    have := B.region.stop B.whole.stop ⟨hr.1, by have := hr.2; omega⟩
    have := hr.2
    omega

theorem Branching.join (B : Branching b ret k a j e) : Join b a j := by
  have hlt := B.lt
  have hle := B.le
  have hpos := B.rest.pos
  refine ⟨⟨e - 1, B.dom ⟨by omega, by omega⟩, fun x hx => ?_⟩, ⟨by omega, B.dom ⟨by omega, hpos⟩, B.real,
    B.pdom ⟨hle, hlt⟩⟩, ?_⟩
  · have := B.only hx
    exact B.region.last_pdom B.whole ⟨Nat.le_trans hle this.1, this.2⟩
  · intro c hc
    have hin := B.only hc.dominated
    by_cases hcj : j ≤ c
    · exact B.rest.dom ⟨hcj, hin.2⟩
    · exfalso
      have hca : In (a + 1) j c := ⟨by have := hin.1; have := hc.ne; omega, by omega⟩
      have h1 : PostDominates b.succ b.returns c j := B.pdom ⟨by have := hca.1; omega, hca.2⟩
      obtain ⟨l0, hl0, hu0⟩ := B.around c hca hc.real
      have hm : ret ∈ b.returns := by rw [B.whole.returns]; exact List.mem_singleton.2 rfl
      have := postdominance_antisymm (h1 ret hm).1 (h1 ret hm).2 (fun l hl => by
        have := (hc.post ret hm).2 _ (hl0.append hl)
        rcases List.mem_append.1 this with h | h
        · exact absurd rfl (hu0 c h)
        · exact List.mem_of_mem_tail h)
      omega

/-- A way from the switch around a block behind it. -/
theorem Branching.not_dom (B : Branching b ret k a j e) {x y : Nat} (hx : In (a + 1) e x)
    (h : Via b.succ (fun z => z ≠ x) a y) : ¬ Dominates b.succ x y := by
  have h1 : Via b.succ (fun z => z ≠ x) 0 a := B.root.mono fun z hz => by
    rintro rfl
    exact hz hx
  exact (h1.trans h).not_dom

end

end Verif.Walk
