import Verif.Boundaries.WholeSpec
import Verif.Boundaries.Props
import Verif.Cfg.Props
import Verif.Facts.Props
import Verif.Flow.Props
import Verif.Frontend.PermissionsProps
/-!
# C98: what the boundaries of a body say
-/
namespace Verif.Boundaries

open Verif.Permissions (Perms Place)
open Verif.Cfg (Loc RealLoc)
open Verif.Facts.Spec

/-! ## The uses -/

theorem around_iff {s : Src} {c c' : Nat} {e : Expr} : Around s c e.node.id c' ↔ c' = s.ctx c e := by
  unfold Around Src.ctx
  cases s.enters e.node.id <;> simp [eq_comm]

theorem requires_unique {u : Use} {p q : Perms} (hp : Requires u p) (hq : Requires u q) : p = q := by
  obtain ⟨a1, a2, a3⟩ := hp
  obtain ⟨b1, b2, b3⟩ := hq
  obtain ⟨p1, p2, p3⟩ := p
  obtain ⟨q1, q2, q3⟩ := q
  have e1 := a1.trans b1.symm
  have e2 := a2.trans b2.symm
  have e3 := a3.trans b3.symm
  dsimp only at e1 e2 e3
  rw [Bool.eq_iff_iff.2 e1, Bool.eq_iff_iff.2 e2, Bool.eq_iff_iff.2 e3]

theorem realPlace_iff {e : Expr} : e.isPlaceNoLit = true ↔ RealPlace e := noLit_iff

/-- The located use is a use in the sense of the specification, and asks for what it needs. -/
def IsUse (s : Src) (c : Nat) (e : Expr) (u : Located) : Prop :=
  ∃ use, UseIn s c e u.pb.node u.pb.isLhs use u.flowContext u.location ∧ Requires use u.pb.expected

theorem isUse_inside {s : Src} {c : Nat} {e k : Expr} {u : Located} (hk : LooksInto e k)
    (h : IsUse s (s.ctx c e) k u) : IsUse s c e u := by
  obtain ⟨use, h1, h2⟩ := h
  exact ⟨use, .inside (around_iff.2 rfl) hk h1, h2⟩

mutual
theorem visitAt_sound (s : Src) (c : Nat) : ∀ (e : Expr) (u : Located), u ∈ visitAt s c e → IsUse s c e u
  | .match_ n d arms, u, h => by
    unfold visitAt at h
    dsimp only at h
    split at h
    · rename_i hd
      rcases List.mem_cons.1 h with h | h
      · subst h
        exact ⟨.inspect, .matched (around_iff (e := .match_ n d arms) |>.2 rfl) (realPlace_iff.1 hd), C29_expected.2.2.2.2.2.2.2⟩
      · obtain ⟨a, ha, h⟩ := visitAllAt_sound s _ arms u h
        exact isUse_inside (.arm ha) h
    · rename_i hd
      rcases List.mem_append.1 h with h | h
      · exact isUse_inside (.discr (fun hc => hd (realPlace_iff.2 hc))) (visitAt_sound s _ d u h)
      · obtain ⟨a, ha, h⟩ := visitAllAt_sound s _ arms u h
        exact isUse_inside (.arm ha) h
  | .methodCall n x r args, u, h => by
    unfold visitAt at h
    dsimp only at h
    split at h
    · rename_i hd
      simp only [Bool.and_eq_true, Bool.not_eq_true'] at hd
      rcases List.mem_cons.1 h with h | h
      · subst h
        rw [hd.1]
        exact ⟨_, .receiver (around_iff (e := .methodCall n x r args) |>.2 rfl) (realPlace_iff.1 hd.2), requires_adjusted _⟩
      · obtain ⟨a, ha, h⟩ := visitAllAt_sound s _ args u h
        exact isUse_inside (.arg ha) h
    · rename_i hd
      rcases List.mem_append.1 h with h | h
      · refine isUse_inside (.receiver ?_) (visitAt_sound s _ r u h)
        cases x
        · exact .inr (fun hc => hd (by simpa using realPlace_iff.2 hc))
        · exact .inl rfl
      · obtain ⟨a, ha, h⟩ := visitAllAt_sound s _ args u h
        exact isUse_inside (.arg ha) h
  | .addrOf n m e, u, h => by
    unfold visitAt at h
    dsimp only at h
    split at h
    · rename_i hd
      simp only [Bool.and_eq_true, Bool.not_eq_true'] at hd
      rw [List.mem_singleton] at h
      subst h
      refine ⟨_, .borrow (around_iff (e := .addrOf n m e) |>.2 rfl) (syntactic_iff.1 hd.1) hd.2, ?_⟩
      cases m
      · exact C29_expected.2.1
      · exact C29_expected.2.2.1
    · rename_i hd
      refine isUse_inside (.borrowed ?_) (visitAt_sound s _ e u h)
      by_cases hp : PlaceForm e
      · refine .inr ?_
        cases hx : e.node.expansion
        · exact absurd (by simp [syntactic_iff.2 hp, hx]) hd
        · rfl
      · exact .inl hp
  | .assign n l r, u, h => by
    unfold visitAt at h
    dsimp only at h
    split at h
    · rename_i hd
      rcases List.mem_cons.1 h with h | h
      · subst h
        cases l with
        | deref m x =>
          exact ⟨.assign, .through (around_iff (e := .assign n (.deref m x) r) |>.2 rfl), C29_expected.1⟩
        | _ => simp [Expr.isDeref] at hd
      · exact isUse_inside .assigned (visitAt_sound s _ r u h)
    · exact isUse_inside .assigned (visitAt_sound s _ r u h)
  | .assignOp n l r, u, h => by
    unfold visitAt at h
    dsimp only at h
    rcases List.mem_cons.1 h with h | h
    · subst h
      exact ⟨.assign, .update (around_iff (e := .assignOp n l r) |>.2 rfl), C29_expected.1⟩
    · exact isUse_inside .added (visitAt_sound s _ r u h)
  | .deref n e, u, h => by
    unfold visitAt at h
    dsimp only at h
    split at h
    · rename_i hd
      simp only [Bool.and_eq_true, Bool.not_eq_true'] at hd
      rw [List.mem_singleton] at h
      subst h
      exact ⟨_, .deref (around_iff (e := .deref n e) |>.2 rfl) (syntactic_iff.1 hd.1) hd.2, requires_adjusted n⟩
    · rename_i hd
      refine isUse_inside (.dereferenced ?_) (visitAt_sound s _ e u h)
      by_cases hp : PlaceForm e
      · refine .inr ?_
        cases hx : e.node.expansion
        · exact absurd (by simp [syntactic_iff.2 hp, hx]) hd
        · rfl
      · exact .inl hp
  | .var n, u, h => by
    unfold visitAt at h
    dsimp only at h
    split at h
    · exact absurd h (by simp)
    · rename_i hd
      rw [List.mem_singleton] at h
      subst h
      exact ⟨_, .var (around_iff (e := .var n) |>.2 rfl) (by simpa using hd), requires_adjusted n⟩
  | .lit _, u, h => by simp [visitAt] at h
  | .item _, u, h => by simp [visitAt] at h
  | .field n e, u, h => by
    unfold visitAt at h
    exact isUse_inside .whole (visitAt_sound s _ e u h)
  | .index n a i, u, h => by
    unfold visitAt at h
    rcases List.mem_append.1 h with h | h
    · exact isUse_inside .array (visitAt_sound s _ a u h)
    · exact isUse_inside .position (visitAt_sound s _ i u h)
  | .other n cs, u, h => by
    unfold visitAt at h
    obtain ⟨a, ha, h⟩ := visitAllAt_sound s _ cs u h
    exact isUse_inside (.part ha) h

theorem visitAllAt_sound (s : Src) (c : Nat) : ∀ (es : List Expr) (u : Located), u ∈ visitAllAt s c es →
    ∃ e ∈ es, IsUse s c e u
  | [], u, h => by simp [visitAllAt] at h
  | e :: r, u, h => by
    unfold visitAllAt at h
    rcases List.mem_append.1 h with h | h
    · exact ⟨e, List.mem_cons_self, visitAt_sound s c e u h⟩
    · obtain ⟨a, ha, h⟩ := visitAllAt_sound s c r u h
      exact ⟨a, List.mem_cons_of_mem _ ha, h⟩
end

theorem mem_visitAllAt {s : Src} {c : Nat} {es : List Expr} {e : Expr} {u : Located} (he : e ∈ es)
    (h : u ∈ visitAt s c e) : u ∈ visitAllAt s c es := by
  induction es with
  | nil => simp at he
  | cons a r ih =>
    unfold visitAllAt
    rcases List.mem_cons.1 he with rfl | he
    · exact List.mem_append_left _ h
    · exact List.mem_append_right _ (ih he)

theorem visitAt_inside {s : Src} {c : Nat} {e k : Expr} (hk : LooksInto e k) {u : Located}
    (h : u ∈ visitAt s (s.ctx c e) k) : u ∈ visitAt s c e := by
  cases hk with
  | arm ha =>
    unfold visitAt; dsimp only
    split
    · exact List.mem_cons_of_mem _ (mem_visitAllAt ha h)
    · exact List.mem_append_right _ (mem_visitAllAt ha h)
  | discr hd =>
    unfold visitAt; dsimp only
    rw [if_neg (fun hc => hd (realPlace_iff.1 hc))]
    exact List.mem_append_left _ h
  | arg ha =>
    unfold visitAt; dsimp only
    split
    · exact List.mem_cons_of_mem _ (mem_visitAllAt ha h)
    · exact List.mem_append_right _ (mem_visitAllAt ha h)
  | receiver hd =>
    unfold visitAt; dsimp only
    rw [if_neg]
    · exact List.mem_append_left _ h
    · intro hc
      simp only [Bool.and_eq_true, Bool.not_eq_true'] at hc
      rcases hd with hd | hd
      · rw [hd] at hc; exact absurd hc.1 (by simp)
      · exact hd (realPlace_iff.1 hc.2)
  | borrowed hd =>
    unfold visitAt; dsimp only
    rw [if_neg]
    · exact h
    · intro hc
      simp only [Bool.and_eq_true, Bool.not_eq_true'] at hc
      rcases hd with hd | hd
      · exact hd (syntactic_iff.1 hc.1)
      · rw [hd] at hc; exact absurd hc.2 (by simp)
  | dereferenced hd =>
    unfold visitAt; dsimp only
    rw [if_neg]
    · exact h
    · intro hc
      simp only [Bool.and_eq_true, Bool.not_eq_true'] at hc
      rcases hd with hd | hd
      · exact hd (syntactic_iff.1 hc.1)
      · rw [hd] at hc; exact absurd hc.2 (by simp)
  | assigned =>
    unfold visitAt; dsimp only
    split
    · exact List.mem_cons_of_mem _ h
    · exact h
  | added => unfold visitAt; exact List.mem_cons_of_mem _ h
  | whole => unfold visitAt; exact h
  | array => unfold visitAt; exact List.mem_append_left _ h
  | position => unfold visitAt; exact List.mem_append_right _ h
  | part ha => unfold visitAt; exact mem_visitAllAt ha h

theorem visitAt_complete {s : Src} {c : Nat} {e node : Expr} {lhs : Bool} {use : Use} {c' : Nat} {sp : Span}
    (h : UseIn s c e node lhs use c' sp) : ∀ {x : Perms}, Requires use x →
    ⟨⟨node, lhs, x⟩, sp, c'⟩ ∈ visitAt s c e := by
  induction h with
  | @matched c c' n d arms ha hd =>
    intro x hx
    have ha := (around_iff (e := .match_ n d arms)).1 ha
    subst ha
    have hx := requires_unique hx C29_expected.2.2.2.2.2.2.2
    subst hx
    unfold visitAt; dsimp only
    rw [if_pos (realPlace_iff.2 hd)]
    exact List.mem_cons_self
  | @receiver c c' n r args ha hd =>
    intro x hx
    have ha := (around_iff (e := .methodCall n false r args)).1 ha
    subst ha
    have hx := requires_unique hx (requires_adjusted _)
    subst hx
    unfold visitAt; dsimp only
    rw [if_pos (by simpa using realPlace_iff.2 hd)]
    exact List.mem_cons_self
  | @borrow c c' n m e ha hp hx' =>
    intro x hx
    have ha := (around_iff (e := .addrOf n m e)).1 ha
    subst ha
    have : x = fromBorrow m := by
      cases m
      · exact requires_unique hx C29_expected.2.1
      · exact requires_unique hx C29_expected.2.2.1
    subst this
    unfold visitAt; dsimp only
    rw [if_pos (by simp [syntactic_iff.2 hp, hx'])]
    exact List.mem_cons_self
  | @through c c' n m e r ha =>
    intro x hx
    have ha := (around_iff (e := .assign n (.deref m e) r)).1 ha
    subst ha
    have hx := requires_unique hx C29_expected.1
    subst hx
    unfold visitAt; dsimp only
    rw [if_pos (by rfl : (Expr.deref m e).isDeref = true)]
    exact List.mem_cons_self
  | @update c c' n l r ha =>
    intro x hx
    have ha := (around_iff (e := .assignOp n l r)).1 ha
    subst ha
    have hx := requires_unique hx C29_expected.1
    subst hx
    unfold visitAt
    exact List.mem_cons_self
  | @deref c c' n e ha hp hx' =>
    intro x hx
    have ha := (around_iff (e := .deref n e)).1 ha
    subst ha
    have hx := requires_unique hx (requires_adjusted n)
    subst hx
    unfold visitAt; dsimp only
    rw [if_pos (by simp [syntactic_iff.2 hp, hx'])]
    exact List.mem_cons_self
  | @var c c' n ha hx' =>
    intro x hx
    have ha := (around_iff (e := .var n)).1 ha
    subst ha
    have hx := requires_unique hx (requires_adjusted n)
    subst hx
    unfold visitAt; dsimp only
    rw [if_neg (by simp [hx'])]
    exact List.mem_cons_self
  | inside ha hk _ ih =>
    intro x hx
    have ha := around_iff.1 ha
    subst ha
    exact visitAt_inside hk (ih hx)

/-- **C98 (uses).** The uses recorded for an expression, with their place in the source and the statement around
them, are exactly those written in it, and each asks for what it needs. -/
theorem C98_uses (s : Src) (c : Nat) (e : Expr) (u : Located) :
    u ∈ visitAt s c e ↔
      ∃ use, UseIn s c e u.pb.node u.pb.isLhs use u.flowContext u.location ∧ Requires use u.pb.expected :=
  ⟨visitAt_sound s c e u, fun ⟨_, h1, h2⟩ => visitAt_complete h1 h2⟩

mutual
theorem visitAt_visit (s : Src) (c : Nat) : ∀ e : Expr, (visitAt s c e).map (·.pb) = visit e
  | .match_ n d arms => by
    unfold visitAt visit; dsimp only
    split
    · simp [visitAllAt_visit s _ arms]
    · simp [visitAllAt_visit s _ arms, visitAt_visit s _ d]
  | .methodCall n x r args => by
    unfold visitAt visit; dsimp only
    split
    · simp [visitAllAt_visit s _ args]
    · simp [visitAllAt_visit s _ args, visitAt_visit s _ r]
  | .addrOf n m e => by
    unfold visitAt visit; dsimp only
    split
    · simp
    · exact visitAt_visit s _ e
  | .assign n l r => by
    unfold visitAt visit; dsimp only
    split
    · simp [visitAt_visit s _ r]
    · exact visitAt_visit s _ r
  | .assignOp n l r => by
    unfold visitAt visit; dsimp only
    simp [visitAt_visit s _ r]
  | .deref n e => by
    unfold visitAt visit; dsimp only
    split
    · simp
    · exact visitAt_visit s _ e
  | .var n => by
    unfold visitAt visit; dsimp only
    split <;> simp
  | .lit _ => by simp [visitAt, visit]
  | .item _ => by simp [visitAt, visit]
  | .field n e => by
    unfold visitAt visit
    exact visitAt_visit s _ e
  | .index n a i => by
    unfold visitAt visit
    simp [visitAt_visit s _ a, visitAt_visit s _ i]
  | .other n cs => by
    unfold visitAt visit
    exact visitAllAt_visit s _ cs

theorem visitAllAt_visit (s : Src) (c : Nat) : ∀ es : List Expr, (visitAllAt s c es).map (·.pb) = visitAll es
  | [] => by simp [visitAllAt, visitAll]
  | e :: r => by
    unfold visitAllAt visitAll
    simp [visitAt_visit s c e, visitAllAt_visit s c r]
end

/-! ## The locations of a node -/

theorem mem_values_iff {w : Whole} {i : Flow.Input} (hw : Fits w i) {id : Nat} {ls : List Loc}
    (h : w.locations id = some ls) (l : Loc) : l ∈ ls ↔ LocOf w id l ∧ RealLoc w.cfg l := by
  unfold Whole.locations at h
  split at h
  · exact absurd h (by simp)
  · rename_i o ho
    simp only [Option.some.injEq] at h
    have hg : ∀ l, l ∈ (Cfg.gather w.hirToMir w.parents id true).eraseDups ↔ LocOf w id l := by
      intro l
      rw [List.mem_eraseDups, Cfg.C39_gather]
      simp [LocOf]
    have hv := (Cfg.C39_values ho (by
      intro l hl
      obtain ⟨k, ls, h1, h2, _⟩ := (hg l).1 hl
      exact hw.inBody k ls h1 l h2)).2 l
    rw [hg] at hv
    rw [← hv, ← h]
    unfold Cfg.Ordered.values
    exact ((hw.order o.locations).flatMap_right _).mem_iff

theorem locations_none {w : Whole} {id : Nat} : w.locations id = none ↔ ¬ ∃ l, LocOf w id l := by
  have hg : ∀ l, l ∈ (Cfg.gather w.hirToMir w.parents id true).eraseDups ↔ LocOf w id l := by
    intro l
    rw [List.mem_eraseDups, Cfg.C39_gather]
    simp [LocOf]
  have : w.locations id = none ↔ (Cfg.gather w.hirToMir w.parents id true).eraseDups = [] := by
    rw [← Cfg.C39_none w.cfg]
    unfold Whole.locations
    split
    · simp_all
    · simp_all
  rw [this, List.eq_nil_iff_forall_not_mem]
  constructor
  · rintro h ⟨l, hl⟩; exact h l ((hg l).2 hl)
  · intro h l hl; exact h ⟨l, (hg l).1 hl⟩

theorem mem_cands {w : Whole} {i : Flow.Input} (hw : Fits w i) {id : Nat} {lhs : Bool} {c : Nat × Place} :
    c ∈ (w.site id).cands w.visible lhs ↔ ∃ l, c.1 = w.start l ∧ UsesAt w id lhs l c.2 := by
  unfold Site.cands Whole.site UsesAt
  cases hl : w.locations id with
  | none =>
    rw [locations_none] at hl
    simp only [Option.map_none, Option.getD_none, List.flatMap_nil, List.not_mem_nil, false_iff]
    rintro ⟨l, _, h, _⟩
    exact hl ⟨l, h⟩
  | some ls =>
    have hm := mem_values_iff hw hl
    simp only [Option.map_some, Option.getD_some, List.mem_flatMap, List.mem_map, List.mem_filter]
    constructor
    · rintro ⟨x, ⟨l, h1, rfl⟩, p, ⟨h2, h3⟩, rfl⟩
      exact ⟨l, rfl, ((hm l).1 h1).1, ((hm l).1 h1).2, h2, h3⟩
    · rintro ⟨l, h0, h1, h2, h3, h4⟩
      refine ⟨_, ⟨l, (hm l).2 ⟨h1, h2⟩, rfl⟩, c.2, ⟨h3, h4⟩, ?_⟩
      rw [← h0]

/-! ## Where a use is looked up -/

/-- **C98 (found).** The place and point a use is judged at: a visible place that a real statement of the node, of
a node below it, or of a node around it (with what is below that) uses. -/
theorem C98_found {w : Whole} {i : Flow.Input} (hw : Fits w i) {pb : PathBoundary} {pt : Nat} {p : Place}
    (h : w.find pb = some (pt, p)) :
    ∃ a ∈ pb.node.node.id :: w.parents pb.node.node.id, ∃ l, pt = w.start l ∧ UsesAt w a pb.isLhs l p := by
  unfold Whole.find at h
  obtain ⟨pre, s, post, h1, h2, _⟩ := (resolve_iff _ _ _ _).1 h
  have hs : s ∈ (pb.node.node.id :: w.parents pb.node.node.id).map w.site := by rw [h1]; simp
  obtain ⟨a, ha, rfl⟩ := List.mem_map.1 hs
  refine ⟨a, ha, ?_⟩
  rw [searchAt_iff] at h2
  have hc : (pt, p) ∈ (w.site a).cands w.visible pb.isLhs := by
    rcases h2 with h2 | ⟨_, ⟨l, _, pre, post, h2, _⟩ | ⟨_, c0, _, pre, post, h2, _⟩⟩
    · rw [h2]; simp
    · rw [h2]; simp
    · rw [h2]; simp
  exact (mem_cands hw).1 hc

/-- **C98 (own statements).** If the statements of the node use one place at one location only, and no other
variable resembles the source text, it is judged there. -/
theorem C98_own {w : Whole} {i : Flow.Input} (hw : Fits w i) {pb : PathBoundary} {l : Loc} {p : Place}
    (hu : UsesAt w pb.node.node.id pb.isLhs l p)
    (hone : ∀ l' p', UsesAt w pb.node.node.id pb.isLhs l' p' → w.start l' = w.start l ∧ p' = p)
    (hsim : ∀ v, w.similar pb.node.node.id = some v → v = p.local_) :
    w.find pb = some (w.start l, p) := by
  unfold Whole.find
  rw [resolve_iff]
  refine ⟨[], w.site pb.node.node.id, _, List.map_cons, ?_, by simp⟩
  generalize hid : pb.node.node.id = id at *
  have hall : ∀ c ∈ (w.site id).cands w.visible pb.isLhs, c = (w.start l, p) := by
    rintro ⟨a, q⟩ hc
    obtain ⟨l', h1, h2⟩ := (mem_cands hw).1 hc
    obtain ⟨h3, h4⟩ := hone l' q h2
    dsimp only at h1
    rw [h1, h3, h4]
  have hmem : (w.start l, p) ∈ (w.site id).cands w.visible pb.isLhs := (mem_cands hw).2 ⟨l, rfl, hu⟩
  have hne : (w.site id).cands w.visible pb.isLhs ≠ [] := by intro hc; rw [hc] at hmem; simp at hmem
  obtain ⟨c, hc⟩ : ∃ c, select (w.similar id) ((w.site id).cands w.visible pb.isLhs) = some c := by
    apply C31_chosen_partial _ _ hne
    intro v hv
    exact ⟨_, hmem, (hsim v hv).symm⟩
  have hcm := C31_member hc
  rw [hall c hcm] at hc
  rw [searchAt_iff, ← select_iff]
  exact hc

/-- **C98 (not found).** A use is not judged iff at its node and at every node around it nothing can be chosen; in
particular if no statement there uses a visible place. -/
theorem C98_unresolved {w : Whole} {i : Flow.Input} (hw : Fits w i) {pb : PathBoundary} :
    (w.find pb = none ↔ ∀ a ∈ pb.node.node.id :: w.parents pb.node.node.id,
      ∀ c, ¬ Chosen (w.similar a) ((w.site a).cands w.visible pb.isLhs) c) ∧
    ((∀ a ∈ pb.node.node.id :: w.parents pb.node.node.id, ¬ ∃ l p, UsesAt w a pb.isLhs l p) → w.find pb = none) := by
  have key : w.find pb = none ↔ ∀ a ∈ pb.node.node.id :: w.parents pb.node.node.id,
      ∀ c, ¬ Chosen (w.similar a) ((w.site a).cands w.visible pb.isLhs) c := by
    unfold Whole.find resolve
    rw [List.findSome?_eq_none_iff]
    simp only [List.mem_map, forall_exists_index, and_imp, forall_apply_eq_imp_iff₂]
    constructor
    · intro h a ha c hc
      have := h a ha
      rw [(searchAt_iff _ _ _ _).2 (show Chosen (w.site a).similar _ c from hc)] at this
      simp at this
    · intro h a ha
      cases hs : searchAt w.visible pb.isLhs (w.site a) with
      | none => rfl
      | some c => exact absurd ((searchAt_iff _ _ _ _).1 hs) (h a ha c)
  refine ⟨key, fun h => ?_⟩
  cases hf : w.find pb with
  | none => rfl
  | some c =>
    obtain ⟨a, ha, l, _, hu⟩ := C98_found hw hf
    exact absurd ⟨l, _, hu⟩ (h a ha)

/-! ## Flows -/

theorem mem_constraintsAt {w : Whole} {i : Flow.Input} (hw : Fits w i) {id : Nat} {cs : List (Nat × Nat)}
    (h : w.constraintsAt id = some cs) (e : Nat × Nat) : e ∈ cs ↔ FlowAt w id e.1 e.2 := by
  unfold Whole.constraintsAt at h
  split at h
  · exact absurd h (by simp)
  · rename_i ls hls
    have hm := mem_values_iff hw hls
    simp only [Option.some.injEq] at h
    rw [← h]
    simp only [List.mem_flatMap, List.mem_map, List.mem_filter, Bool.and_eq_true, Bool.not_eq_true',
      Whole.isUniversalSubset, List.any_eq_false, Bool.or_eq_true, beq_iff_eq, not_or, List.contains_iff_mem,
      List.mem_cons, List.not_mem_nil, or_false]
    unfold FlowAt
    constructor
    · rintro ⟨l, hl, ⟨f, t, q⟩, ⟨h1, h2, h3⟩, rfl⟩
      exact ⟨l, q, ((hm l).1 hl).1, ((hm l).1 hl).2, h1, h3, fun hc => (h2 _ hc).1 rfl, fun hc => (h2 _ hc).2 rfl⟩
    · rintro ⟨l, q, h1, h2, h3, h4, h5, h6⟩
      refine ⟨l, (hm l).2 ⟨h1, h2⟩, (e.1, e.2, q), ⟨h3, ?_, h4⟩, rfl⟩
      intro p hp
      exact ⟨fun (hc : p = e.1) => h5 (hc ▸ hp), fun (hc : p = e.2) => h6 (hc ▸ hp)⟩

theorem constraintsAt_none {w : Whole} {id : Nat} : w.constraintsAt id = none ↔ ¬ ∃ l, LocOf w id l := by
  rw [← locations_none]
  unfold Whole.constraintsAt
  split <;> simp_all

theorem flow_iff {w : Whole} {i : Flow.Input} (hw : Fits w i) (ctx id : Nat) :
    ((w.flow ctx id).isSome = true ↔ FlowAsked w i ctx id) ∧
    ((∃ k, w.flow ctx id = some k ∧ k ≠ .ok) ↔ FlowAsked w i ctx id ∧ FlowWrong w i ctx id) := by
  unfold Whole.flow
  by_cases hon : w.flowOn = true
  case neg =>
    simp only [Bool.not_eq_true] at hon
    simp [hon, FlowAsked]
  rw [if_neg (by simp [hon])]
  cases hc : w.constraintsAt ctx with
  | none =>
    rw [constraintsAt_none] at hc
    have : ¬ FlowAsked w i ctx id := by
      rintro ⟨_, _, f, t, ⟨l, _, h, _⟩, _⟩
      exact hc ⟨l, h⟩
    simp [this, Flow.Flows.flowPermission]
  | some cs =>
    have hmc := mem_constraintsAt hw hc
    cases hs : w.constraintsAt id with
    | none =>
      rw [constraintsAt_none] at hs
      have : ¬ FlowAsked w i ctx id := fun h => hs h.2.1
      have hn : w.flows.flowPermission (some cs) none = none := by
        unfold Flow.Flows.flowPermission
        simp
      simp [this, hn]
    | some sp =>
      have hms := mem_constraintsAt hw hs
      have hloc : ∃ l, LocOf w id l := by
        by_cases h : ∃ l, LocOf w id l
        · exact h
        · rw [← constraintsAt_none, hs] at h
          simp at h
      have hg : ∀ e ∈ cs, Flow.InGraph i e.1 ∧ Flow.InGraph i e.2 := by
        intro e he
        obtain ⟨l, q, _, _, h3, _⟩ := (hmc e).1 he
        have : e ∈ i.constraints := by
          rw [hw.constraints]
          exact List.mem_map.2 ⟨_, h3, rfl⟩
        exact ⟨⟨e, this, .inl (Nat.le_refl _)⟩, ⟨e, this, .inr (Nat.le_refl _)⟩⟩
      obtain ⟨k1, k2⟩ := Flow.C32_boundary hw.flows cs sp hg
      have hasked : FlowAsked w i ctx id ↔ ∃ e ∈ cs, ∃ p, Flow.Caller i p ∧ Flow.Same i p e.2 := by
        unfold FlowAsked IntoCaller
        constructor
        · rintro ⟨_, _, f, t, h1, h2⟩
          exact ⟨(f, t), (hmc (f, t)).2 h1, h2⟩
        · rintro ⟨e, he, h2⟩
          exact ⟨hon, hloc, e.1, e.2, (hmc e).1 he, h2⟩
      have hwrong : FlowWrong w i ctx id ↔ ∃ e ∈ cs, Flow.Bad i sp e := by
        unfold FlowWrong Flow.Bad IntoCaller Allowed
        constructor
        · rintro ⟨f, t, h1, h2, h3, g, h, h4, h5⟩
          exact ⟨(f, t), (hmc (f, t)).2 h1, h2, h3, (g, h), (hms (g, h)).2 h4, h5⟩
        · rintro ⟨e, he, h2, h3, g, hg, h5⟩
          exact ⟨e.1, e.2, (hmc e).1 he, h2, h3, g.1, g.2, (hms g).1 hg, h5⟩
      constructor
      · rw [Option.isSome_iff_ne_none, Ne, k1, hasked]
        constructor
        · intro h
          exact Classical.byContradiction h
        · exact fun h hc => hc h
      · rw [k2, hwrong]
        constructor
        · rintro ⟨e, he, hb⟩
          exact ⟨hasked.2 ⟨e, he, hb.1⟩, e, he, hb⟩
        · exact fun h => h.2

/-! ## What is shown -/

theorem actual_iff {w : Whole} {i : Flow.Input} (hw : Fits w i) (pt : Nat) (p : Place) :
    let a := (Facts.dataAtPoint w.facts w.out (w.path p) pt).permissionsIgnoreLiveness
    (a.read = false ↔ CannotRead w pt p) ∧
    (a.write = false ↔ CannotRead w pt p ∨ w.facts.writeEnabled (w.path p) = false ∨ Borrowed w pt p) ∧
    (a.drop = false ↔ CannotRead w pt p ∨ w.facts.dropEnabled (w.path p) = false ∨ Borrowed w pt p) := by
  obtain ⟨fuel, hd⟩ := hw.derived
  obtain ⟨-, d2, d3, -, d5, -, d7, d8, -⟩ := Facts.derive_spec hd
  have e1 := d2 pt (w.path p)
  have e2 := d3 pt (w.path p)
  have e3 := d5 pt (w.path p)
  have e4 := d7 pt (w.path p)
  have e5 := d8 pt (w.path p)
  have hr : ∀ r : Bool, r = (((w.out.moveRefined pt (w.path p)).isNone && !w.out.uninitEntry pt (w.path p)) &&
      (w.out.loanReadRefined pt (w.path p)).isNone) → (r = false ↔ CannotRead w pt p) := by
    intro r hr
    rw [← Bool.not_eq_true, hr, Bool.and_eq_true, Bool.and_eq_true, Option.isNone_iff_eq_none,
      Option.isNone_iff_eq_none, e1, e3, Bool.not_eq_true', ← Bool.not_eq_true, e2]
    unfold CannotRead
    grind
  dsimp only
  refine ⟨?_, ?_, ?_⟩
  · apply hr
    simp [Permissions.Data.permissionsIgnoreLiveness, Facts.dataAtPoint]
  · have hr := hr _ rfl
    rw [← hr]
    have hb : Borrowed w pt p ↔ ¬ w.out.loanWriteRefined pt (w.path p) = none := by
      rw [e4]; unfold Borrowed; grind
    rw [hb]
    simp only [Permissions.Data.permissionsIgnoreLiveness, Facts.dataAtPoint]
    cases w.out.moveRefined pt (w.path p) <;> cases w.out.uninitEntry pt (w.path p) <;>
      cases w.out.loanReadRefined pt (w.path p) <;> cases w.facts.writeEnabled (w.path p) <;>
      cases w.out.loanWriteRefined pt (w.path p) <;> simp
  · have hr := hr _ rfl
    rw [← hr]
    have hb : Borrowed w pt p ↔ ¬ w.out.loanDropRefined pt (w.path p) = none := by
      rw [e5, e4]; unfold Borrowed; grind
    rw [hb]
    simp only [Permissions.Data.permissionsIgnoreLiveness, Facts.dataAtPoint]
    cases w.out.moveRefined pt (w.path p) <;> cases w.out.uninitEntry pt (w.path p) <;>
      cases w.out.loanReadRefined pt (w.path p) <;> cases w.facts.dropEnabled (w.path p) <;>
      cases w.out.loanDropRefined pt (w.path p) <;> simp

theorem boundary_tells {w : Whole} {i : Flow.Input} (hw : Fits w i) {u : Located} {use : Use} {pt : Nat} {p : Place}
    (hu : Requires use u.pb.expected) (hf : w.find u.pb = some (pt, p)) (pos : Nat → Frontend.Pos) :
    ∃ b, w.boundary u = some b ∧ b.byteLocation = ((w.asLocal u.location).getD u.location).hi ∧
      b.location = b.byteLocation ∧ (b.flow ≠ none ↔ FlowAsked w i u.flowContext u.pb.node.node.id) ∧
      Tells w i use u.flowContext u.pb.node.node.id pt p (Frontend.bndIcons (b.sent pos)) := by
  unfold Whole.boundary
  rw [hf]
  dsimp only
  refine ⟨_, rfl, rfl, rfl, ?_, ?_⟩
  · dsimp only
    rw [← (flow_iff hw _ _).1]
    cases w.flow u.flowContext u.pb.node.node.id <;> simp
  · obtain ⟨a1, a2, a3⟩ := actual_iff hw pt p
    obtain ⟨l1, l2, l3, l4, -⟩ := Frontend.C77_letters (Boundary.sent pos
      { location := ((w.asLocal u.location).getD u.location).hi
        byteLocation := ((w.asLocal u.location).getD u.location).hi
        expected := u.pb.expected
        actual := (Facts.dataAtPoint w.facts w.out (w.path p) pt).permissionsIgnoreLiveness
        flow := (w.flow u.flowContext u.pb.node.node.id).map fun k => !k.valid })
    obtain ⟨q1, q2, q3⟩ := hu
    refine ⟨?_, ?_, ?_, ?_⟩
    · intro m
      rw [l1, ← a1]
      show u.pb.expected.read = true ∧ m = !_ ↔ _
      rw [q1]
      show _ ∧ m = !(Facts.dataAtPoint w.facts w.out (w.path p) pt).permissionsIgnoreLiveness.read ↔ _
      generalize (Facts.dataAtPoint w.facts w.out (w.path p) pt).permissionsIgnoreLiveness.read = x
      cases m <;> cases x <;> simp [Use.needsRead]
    · intro m
      rw [l2, ← a2]
      show u.pb.expected.write = true ∧ m = !_ ↔ _
      rw [q2]
      show _ ∧ m = !(Facts.dataAtPoint w.facts w.out (w.path p) pt).permissionsIgnoreLiveness.write ↔ _
      generalize (Facts.dataAtPoint w.facts w.out (w.path p) pt).permissionsIgnoreLiveness.write = x
      cases m <;> cases x <;> simp
    · intro m
      rw [l3, ← a3]
      show u.pb.expected.drop = true ∧ m = !_ ↔ _
      rw [q3]
      show _ ∧ m = !(Facts.dataAtPoint w.facts w.out (w.path p) pt).permissionsIgnoreLiveness.drop ↔ _
      generalize (Facts.dataAtPoint w.facts w.out (w.path p) pt).permissionsIgnoreLiveness.drop = x
      cases m <;> cases x <;> simp
    · intro m
      rw [l4]
      obtain ⟨f1, f2⟩ := flow_iff hw u.flowContext u.pb.node.node.id
      show (w.flow u.flowContext u.pb.node.node.id).map (fun k => !k.valid) = some m ↔ _
      cases hk : w.flow u.flowContext u.pb.node.node.id with
      | none =>
        rw [hk] at f1
        simp only [Option.isSome_none, Bool.false_eq_true, false_iff] at f1
        simp [f1]
      | some k =>
        rw [hk] at f1 f2
        simp only [Option.isSome_some, true_iff] at f1
        simp only [Option.some.injEq, exists_eq_left', f1, true_and] at f2
        simp only [Option.map_some, Option.some.injEq, f1, true_and, ← f2]
        cases m <;> cases k <;> simp [Flow.Kind.valid]

/-- **C98 (every boundary).** Each boundary reported for a body comes from a use in its source, at the end of its
span (or of what it stands for in the body); it is judged at a place and point found for that use; the letters say
what the use needs and which of it is missing; and it is not after the first error, unless it is about a flow. -/
theorem C98_boundaries {w : Whole} {i : Flow.Input} (hw : Fits w i) (pos : Nat → Frontend.Pos) {b : Boundary}
    (hb : b ∈ w.boundaries) :
    ∃ node lhs use ctx sp x pt p, UseIn w.src w.root.node.id w.root node lhs use ctx sp ∧ Requires use x ∧
      w.find ⟨node, lhs, x⟩ = some (pt, p) ∧ b.location = ((w.asLocal sp).getD sp).hi ∧
      Tells w i use ctx node.node.id pt p (Frontend.bndIcons (b.sent pos)) ∧
      ∀ e, w.firstError = some e → b.location ≤ e ∨ FlowAsked w i ctx node.node.id := by
  have hb' : b ∈ (visitAt w.src w.root.node.id w.root).filterMap w.boundary ∧
      ∀ e, w.firstError = some e → b.byteLocation ≤ e ∨ b.flow ≠ none := by
    unfold Whole.boundaries at hb
    cases he : w.firstError with
    | none => rw [he, C30_no_error] at hb; exact ⟨hb, by simp⟩
    | some e =>
      rw [he, C30_reported] at hb
      exact ⟨hb.1, by rintro _ ⟨⟩; exact hb.2⟩
  obtain ⟨hb1, hb2⟩ := hb'
  obtain ⟨u, hu, hbu⟩ := List.mem_filterMap.1 hb1
  obtain ⟨use, h1, h2⟩ := (C98_uses _ _ _ u).1 hu
  cases hf : w.find u.pb with
  | none => simp [Whole.boundary, hf] at hbu
  | some c =>
    obtain ⟨b', k1, k2, k3, k4, k5⟩ := boundary_tells hw h2 hf pos
    rw [hbu] at k1
    simp only [Option.some.injEq] at k1
    subst k1
    refine ⟨u.pb.node, u.pb.isLhs, use, u.flowContext, u.location, u.pb.expected, c.1, c.2, h1, h2, hf, ?_, k5, ?_⟩
    · rw [k3, k2]
    · intro e he
      rw [k3, ← k4]
      exact hb2 e he

/-- **C98 (every use).** A use in the source for which a place is found is reported unless it is after the first
error and not about a flow. -/
theorem C98_reported {w : Whole} {i : Flow.Input} (hw : Fits w i) (pos : Nat → Frontend.Pos)
    {node : Expr} {lhs : Bool} {use : Use} {ctx : Nat} {sp : Span} {x : Perms} {pt : Nat} {p : Place}
    (h1 : UseIn w.src w.root.node.id w.root node lhs use ctx sp) (h2 : Requires use x)
    (hf : w.find ⟨node, lhs, x⟩ = some (pt, p))
    (he : ∀ e, w.firstError = some e → ((w.asLocal sp).getD sp).hi ≤ e ∨ FlowAsked w i ctx node.node.id) :
    ∃ b ∈ w.boundaries, b.location = ((w.asLocal sp).getD sp).hi ∧
      Tells w i use ctx node.node.id pt p (Frontend.bndIcons (b.sent pos)) := by
  have hu : (⟨⟨node, lhs, x⟩, sp, ctx⟩ : Located) ∈ visitAt w.src w.root.node.id w.root :=
    (C98_uses _ _ _ _).2 ⟨use, h1, h2⟩
  obtain ⟨b, k1, k2, k3, k4, k5⟩ := boundary_tells hw (u := ⟨⟨node, lhs, x⟩, sp, ctx⟩) h2 hf pos
  refine ⟨b, ?_, k3.trans k2, k5⟩
  have hb : b ∈ (visitAt w.src w.root.node.id w.root).filterMap w.boundary := List.mem_filterMap.2 ⟨_, hu, k1⟩
  unfold Whole.boundaries
  cases hfe : w.firstError with
  | none => rw [C30_no_error]; exact hb
  | some e =>
    rw [C30_reported]
    refine ⟨hb, ?_⟩
    rcases he e hfe with h | h
    · exact .inl (by rw [k2]; exact h)
    · exact .inr (k4.2 h)

/-- **C98 (order).** The boundaries come in the order of the uses, at most one for each. -/
theorem C98_order (w : Whole) : ∃ us : List Located, us.Sublist (visitAt w.src w.root.node.id w.root) ∧
    us.map w.boundary = w.boundaries.map some := by
  unfold Whole.boundaries
  generalize visitAt w.src w.root.node.id w.root = l
  induction l with
  | nil => exact ⟨[], List.Sublist.refl _, by simp [report]⟩
  | cons x r ih =>
    obtain ⟨us, h1, h2⟩ := ih
    cases hx : w.boundary x with
    | none => exact ⟨us, h1.cons _, by simp [hx, h2]⟩
    | some b =>
      rw [List.filterMap_cons_some hx]
      have h3 : report w.firstError (b :: r.filterMap w.boundary) =
          report w.firstError [b] ++ report w.firstError (r.filterMap w.boundary) :=
        (C30_order w.firstError [b] (r.filterMap w.boundary)).2
      rw [h3]
      have hone : report w.firstError [b] = [] ∨ report w.firstError [b] = [b] := by
        have hq : ∀ q : Boundary → Bool, [b].filter q = [] ∨ [b].filter q = [b] := by
          intro q
          cases h : q b <;> simp [h]
        exact hq _
      rcases hone with h | h
      · exact ⟨us, h1.cons _, by rw [h]; simpa using h2⟩
      · exact ⟨x :: us, h1.cons_cons _, by rw [h]; simp [hx, h2]⟩

/-- **C98 (the page).** Each stack drawn for some bodies is the first boundary reported at its position, and its
letters say what a use in the source of one of the bodies needs and which of it is missing. -/
theorem C98_drawn {doc : List Char} {ws : List (Whole × Flow.Input)} (hws : ∀ x ∈ ws, Fits x.1 x.2)
    (pos : Nat → Frontend.Pos) {ds : List (Nat × Frontend.Bnd)}
    (h : Frontend.drawnBoundaries doc (ws.map fun x => x.1.boundaries.map (·.sent pos)) = .ok ds) :
    (ds.map (·.1)).Nodup ∧
    (∀ n d, (n, d) ∈ ds → ∃ w i node lhs use ctx sp x pt p, (w, i) ∈ ws ∧
      UseIn w.src w.root.node.id w.root node lhs use ctx sp ∧ Requires use x ∧
      w.find ⟨node, lhs, x⟩ = some (pt, p) ∧
      Frontend.linecol doc (pos ((w.asLocal sp).getD sp).hi) = some n ∧
      Tells w i use ctx node.node.id pt p (Frontend.bndIcons d)) ∧
    ∀ w i, (w, i) ∈ ws → ∀ b ∈ w.boundaries, ∃ n, Frontend.linecol doc (pos b.location) = some n ∧
      n ∈ ds.map (·.1) := by
  obtain ⟨h1, h2, h3, h4⟩ := Frontend.C54_drawn h
  refine ⟨h1, ?_, ?_⟩
  · intro n d hd
    have hf := h4 n d hd
    have hm := List.mem_of_find?_eq_some hf
    have hp := List.find?_some hf
    simp only [List.mem_flatten, List.mem_map] at hm
    obtain ⟨_, ⟨⟨w, i⟩, hw, rfl⟩, hm⟩ := hm
    obtain ⟨b, hb, rfl⟩ := List.mem_map.1 hm
    obtain ⟨node, lhs, use, ctx, sp, x, pt, p, k1, k2, k3, k4, k5, _⟩ := C98_boundaries (hws _ hw) pos hb
    refine ⟨w, i, node, lhs, use, ctx, sp, x, pt, p, hw, k1, k2, k3, ?_, k5⟩
    rw [← k4]
    simpa [Boundary.sent] using hp
  · intro w i hw b hb
    exact h3 (b.sent pos) (List.mem_flatten.2 ⟨_, List.mem_map.2 ⟨(w, i), hw, rfl⟩, List.mem_map_of_mem hb⟩)

end Verif.Boundaries
