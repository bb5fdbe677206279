import Verif.Boundaries.WholeProps
/-!
# C98: the order in which blocks are looked at
-/
namespace Verif.Boundaries

open Verif.Permissions (Perms Place)
open Verif.Cfg (Loc RealLoc)

/-- The same body with another order of iteration. -/
def Whole.reorder (w : Whole) (o : List (Nat × List Nat) → List (Nat × List Nat)) : Whole := { w with order := o }

/-- The real locations of the node are in one block. -/
def OneBlock (w : Whole) (id : Nat) : Prop :=
  ∀ l l', LocOf w id l → RealLoc w.cfg l → LocOf w id l' → RealLoc w.cfg l' → l.block = l'.block

theorem locations_oneBlock {w : Whole} {i : Flow.Input} (hw : Fits w i)
    {o : List (Nat × List Nat) → List (Nat × List Nat)} (ho : ∀ m, (o m).Perm m) {id : Nat} (h1 : OneBlock w id) :
    (w.reorder o).locations id = w.locations id := by
  unfold Whole.locations Whole.reorder
  dsimp only
  cases hm : w.cfg.mirLocations (Cfg.gather w.hirToMir w.parents id true).eraseDups with
  | none => rfl
  | some q =>
    dsimp only
    have hlen : ∀ a ∈ q.locations, ∀ b ∈ q.locations, a.1 = b.1 := by
      have hg : ∀ l, l ∈ (Cfg.gather w.hirToMir w.parents id true).eraseDups ↔ LocOf w id l := by
        intro l
        rw [List.mem_eraseDups, Cfg.C39_gather]
        simp [LocOf]
      have hv := (Cfg.C39_values hm (by
        intro l hl
        obtain ⟨k, ls, h1, h2, _⟩ := (hg l).1 hl
        exact hw.inBody k ls h1 l h2)).2
      have hq : q.locations = w.cfg.locationMap (Cfg.gather w.hirToMir w.parents id true).eraseDups := by
        unfold Cfg.Body.mirLocations at hm
        split at hm
        · exact absurd hm (by simp)
        · simp only [Option.some.injEq] at hm
          rw [← hm]
      have hsome : ∀ a ∈ q.locations, ∃ l, l ∈ q.values ∧ l.block = a.1 := by
        intro a ha
        have := (Cfg.mem_blocks (m := q.locations) (by
          rw [hq]; exact fun e he => ((Cfg.locationMap_spec w.cfg _).2.2 e he).1) a.1).1 (List.mem_map_of_mem ha)
        exact this
      intro a ha b hb
      obtain ⟨l, hl, e1⟩ := hsome a ha
      obtain ⟨l', hl', e2⟩ := hsome b hb
      rw [← e1, ← e2]
      obtain ⟨p1, p2⟩ := (hv l).1 hl
      obtain ⟨q1, q2⟩ := (hv l').1 hl'
      exact h1 l l' ((hg l).1 p1) p2 ((hg l').1 q1) q2
    have hnd : (q.locations.map (·.1)).Nodup := by
      unfold Cfg.Body.mirLocations at hm
      split at hm
      · exact absurd hm (by simp)
      · simp only [Option.some.injEq] at hm
        rw [← hm]
        exact (Cfg.locationMap_spec w.cfg _).2.1
    have hsame : ∀ m : List (Nat × List Nat), (m.map (·.1)).Nodup → (∀ a ∈ m, ∀ b ∈ m, a.1 = b.1) →
        o m = w.order m := by
      intro m h1 h2
      match m with
      | [] => rw [(ho []).eq_nil, (hw.order []).eq_nil]
      | [a] => rw [List.perm_singleton.1 (ho [a]), List.perm_singleton.1 (hw.order [a])]
      | a :: b :: r =>
        exfalso
        have := h2 a (by simp) b (by simp)
        simp [this] at h1
    rw [hsame _ hnd hlen]

theorem reorder_fits {w : Whole} {i : Flow.Input} (hw : Fits w i)
    {o : List (Nat × List Nat) → List (Nat × List Nat)} (ho : ∀ m, (o m).Perm m) : Fits (w.reorder o) i :=
  ⟨hw.derived, hw.flows, hw.constraints, hw.inBody, ho⟩

/-- **C98 (order of blocks).** If the statements of the node of a use, and of each node around it, are in one block,
the boundary does not depend on the order in which the map of blocks is iterated. -/
theorem C98_order_free_partial {w : Whole} {i : Flow.Input} (hw : Fits w i)
    {o : List (Nat × List Nat) → List (Nat × List Nat)} (ho : ∀ m, (o m).Perm m) (u : Located)
    (h1 : ∀ a ∈ u.pb.node.node.id :: w.parents u.pb.node.node.id, OneBlock w a) :
    (w.reorder o).boundary u = w.boundary u := by
  have hfind : (w.reorder o).find u.pb = w.find u.pb := by
    unfold Whole.find
    congr 1
    apply List.map_congr_left
    intro a ha
    unfold Whole.site
    rw [locations_oneBlock hw ho (h1 a ha)]
    rfl
  have hflow : ((w.reorder o).flow u.flowContext u.pb.node.node.id).map (fun k => !k.valid) =
      (w.flow u.flowContext u.pb.node.node.id).map (fun k => !k.valid) := by
    obtain ⟨a1, a2⟩ := flow_iff (reorder_fits hw ho) u.flowContext u.pb.node.node.id
    obtain ⟨b1, b2⟩ := flow_iff hw u.flowContext u.pb.node.node.id
    have e1 : FlowAsked (w.reorder o) i u.flowContext u.pb.node.node.id ↔
        FlowAsked w i u.flowContext u.pb.node.node.id := Iff.rfl
    have e2 : FlowWrong (w.reorder o) i u.flowContext u.pb.node.node.id ↔
        FlowWrong w i u.flowContext u.pb.node.node.id := Iff.rfl
    rw [e1, ← b1] at a1
    rw [e1, e2, ← b2] at a2
    revert a1 a2
    generalize (w.reorder o).flow u.flowContext u.pb.node.node.id = x
    generalize w.flow u.flowContext u.pb.node.node.id = y
    intro a1 a2
    cases x with
    | none => cases y with
      | none => rfl
      | some k => simp at a1
    | some k => cases y with
      | none => simp at a1
      | some k' => cases k <;> cases k' <;> first | rfl | simp at a2
  unfold Whole.boundary
  rw [hfind]
  cases w.find u.pb with
  | none => rfl
  | some c =>
    dsimp only
    rw [hflow]
    rfl

end Verif.Boundaries
