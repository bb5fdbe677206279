import Verif.HirSource.Model
import Verif.Mapper.Props
import Verif.Cfg.Chain
import Verif.HirSteps.Straight

/-! # C99: the steps of a function in terms of its statements -/
namespace Verif.HirSource

open Verif.Cfg Verif.Mapper Verif.HirSteps Verif.Graph Verif.Segments

/-! ## Specification -/

/-- A location of the code of a node: in normal control flow, real, and of the node or one below it. -/
structure LocOf (s : Source) (id : Nat) (l : Loc) : Prop where
  inBody : ∃ d, s.body[l.block]? = some d ∧ l.idx ≤ d.stmts ∧ d.cleanup = false
  below : Below s.hir id (s.hirOf l)
  real : RealLoc s.body l

/-- The last location of the code of a node, along a straight line. -/
def IsLast (path : List Nat) (s : Source) (id : Nat) (e : Loc) : Prop :=
  LocOf s id e ∧ ∀ l, LocOf s id l → Before path l e

def IsFirst (path : List Nat) (s : Source) (id : Nat) (e : Loc) : Prop :=
  LocOf s id e ∧ ∀ l, LocOf s id l → Before path e l

mutual
/-- No `if`, loop or `match` in the tree. -/
def straightExpr : RExpr → Bool
  | .other _ ps => straightParts ps
  | _ => false
def straightOpt : Option RExpr → Bool
  | none => true
  | some e => straightExpr e
def straightParts : List RPart → Bool
  | [] => true
  | p :: r => straightPart p && straightParts r
def straightPart : RPart → Bool
  | .expr e => straightExpr e
  | .block b => straightBlock b
  | .body e => straightExpr e
def straightStmts : List RStmt → Bool
  | [] => true
  | x :: r => straightStmt x && straightStmts r
def straightStmt : RStmt → Bool
  | .lt _ _ i e => straightOpt i && straightOptBlock e
  | .expr _ e => straightExpr e
  | .item _ ps => straightParts ps
def straightOptBlock : Option RBlock → Bool
  | none => true
  | some b => straightBlock b
def straightBlock : RBlock → Bool
  | .mk _ ss e => straightStmts ss && straightOpt e
end

mutual
/-- The statements, final expressions and bodies inside a tree, the inner ones first. -/
def unitsExpr : RExpr → List Nat
  | .other _ ps => unitsParts ps
  | _ => []
def unitsOpt : Option RExpr → List Nat
  | none => []
  | some e => unitsExpr e
def unitsParts : List RPart → List Nat
  | [] => []
  | p :: r => unitsPart p ++ unitsParts r
def unitsPart : RPart → List Nat
  | .expr e => unitsExpr e
  | .block b => unitsBlock b
  | .body e => unitsExpr e ++ [e.id]
def unitsStmts : List RStmt → List Nat
  | [] => []
  | x :: r => unitsStmt x ++ unitsStmts r
def unitsStmt : RStmt → List Nat
  | .lt n _ i e => unitsOpt i ++ unitsOptBlock e ++ [n]
  | .expr n e => unitsExpr e ++ [n]
  | .item n ps => unitsParts ps ++ [n]
def unitsOptBlock : Option RBlock → List Nat
  | none => []
  | some b => unitsBlock b
def unitsBlock : RBlock → List Nat
  | .mk _ ss none => unitsStmts ss
  | .mk _ ss (some e) => unitsStmts ss ++ (unitsExpr e ++ [e.id])
end

/-- The statements, final expressions and bodies of a function, in the order of their ends. -/
def units (value : RExpr) : List Nat := unitsExpr value ++ [value.id]

/-- Code is laid out in the order of the source: a unit is inside a later one, or all its code comes before. -/
def InOrder (path : List Nat) (s : Source) (us : List Nat) : Prop :=
  us.Pairwise fun u w => Below s.hir w u ∨ ∀ l l', LocOf s u l → LocOf s w l' → Before path l l'

/-- Steps one after the other, from a location through the given ends. -/
def consecutive : Loc → List (Loc × Nat) → List (Loc × Loc × Nat)
  | _, [] => []
  | c, (l, sp) :: r => (c, l, sp) :: consecutive l r

/-! ## What a node is mapped to -/

theorem mem_visited_not {b : Body} {l : Loc} : l ∈ visited b false ↔
    ∃ d, b[l.block]? = some d ∧ l.idx ≤ d.stmts ∧ d.cleanup = false := by
  rw [mem_visited]
  simp

theorem mem_locs (s : Source) (id : Nat) (nested : Bool) (l : Loc) :
    l ∈ gather (hirToMir s.body s.hirOf false) s.hir.parents id nested ↔
      (∃ d, s.body[l.block]? = some d ∧ l.idx ≤ d.stmts ∧ d.cleanup = false) ∧
      (s.hirOf l = id ∨ (nested = true ∧ Below s.hir id (s.hirOf l))) := by
  rw [C39_gather]
  constructor
  · rintro ⟨k, ls, hm, hl, hk⟩
    obtain ⟨h1, h2⟩ := (mem_hirToMir s.body s.hirOf false k l).1 ⟨ls, hm, hl⟩
    refine ⟨mem_visited_not.1 h1, ?_⟩
    rw [h2]
    rcases hk with rfl | ⟨hn, hk⟩
    · exact .inl rfl
    · exact .inr ⟨hn, ((mem_parents _ _ _).1 hk).2⟩
  · rintro ⟨h1, h2⟩
    obtain ⟨ls, hm, hl⟩ := (mem_hirToMir s.body s.hirOf false (s.hirOf l) l).2 ⟨mem_visited_not.2 h1, rfl⟩
    refine ⟨_, ls, hm, hl, ?_⟩
    by_cases he : s.hirOf l = id
    · exact .inl he
    · rcases h2 with h2 | ⟨hn, h2⟩
      · exact .inl h2
      · exact .inr ⟨hn, (mem_parents _ _ _).2 ⟨Ne.symm he, h2⟩⟩

theorem mem_nested (s : Source) (id : Nat) (l : Loc) :
    l ∈ gather (hirToMir s.body s.hirOf false) s.hir.parents id true ↔
      (∃ d, s.body[l.block]? = some d ∧ l.idx ≤ d.stmts ∧ d.cleanup = false) ∧ Below s.hir id (s.hirOf l) := by
  rw [mem_locs]
  constructor
  · rintro ⟨h1, h2 | ⟨_, h2⟩⟩
    · exact ⟨h1, by rw [h2]; exact .here⟩
    · exact ⟨h1, h2⟩
  · rintro ⟨h1, h2⟩
    exact ⟨h1, .inr ⟨rfl, h2⟩⟩

theorem locs_lt (s : Source) (id : Nat) (nested : Bool) :
    ∀ l ∈ gather (hirToMir s.body s.hirOf false) s.hir.parents id nested, l.block < s.body.length := by
  intro l hl
  obtain ⟨⟨d, hd, _⟩, _⟩ := (mem_locs s id nested l).1 hl
  exact (List.getElem?_eq_some_iff.1 hd).1

theorem mem_values {s : Source} {id : Nat} {o : Cfg.Ordered} (h : s.locations id true = some o) (l : Loc) :
    l ∈ o.values ↔ LocOf s id l := by
  rw [(C39_values h (locs_lt s id true)).2, mem_nested]
  exact ⟨fun ⟨⟨h1, h2⟩, h3⟩ => ⟨h1, h2, h3⟩, fun ⟨h1, h2, h3⟩ => ⟨⟨h1, h2⟩, h3⟩⟩

theorem exit_none {s : Source} {id : Nat} (h : s.locations id true = none) : ∀ l, ¬ LocOf s id l := by
  intro l hl
  have : l ∈ gather (hirToMir s.body s.hirOf false) s.hir.parents id true := (mem_nested s id l).2 ⟨hl.inBody, hl.below⟩
  rw [(C39_none _ _).1 h] at this
  simp at this

/-- **C99 (where a node ends, any control flow).** A node has an end if and only if one of its blocks post-dominates
all of them; the end is in such a block, at the last of the node's locations there. -/
theorem C99_end {s : Source} (hv : Valid s.body) (id : Nat) :
    ((∃ e, (s.node id).exit = some e) ↔
      ∃ k, LocOf s id k ∧ ∀ l, LocOf s id l → PostDominates s.body.succ s.body.returns l.block k.block) ∧
    ∀ e, (s.node id).exit = some e → LocOf s id e ∧
      ∀ l, LocOf s id l → PostDominates s.body.succ s.body.returns l.block e.block ∧
        (l.block = e.block → l.idx ≤ e.idx) := by
  change ((∃ e, (s.locations id true).bind Cfg.Ordered.exitLocation = some e) ↔ _) ∧
    ∀ e, (s.locations id true).bind Cfg.Ordered.exitLocation = some e → _
  cases h : s.locations id true with
  | none =>
    refine ⟨⟨by rintro ⟨e, he⟩; simp at he, ?_⟩, by intro e he; simp at he⟩
    rintro ⟨k, hk, _⟩
    exact absurd hk (exit_none h k)
  | some o =>
    have hm := mem_values h
    have hf := (C39_found hv (locs_lt s id true) h).2
    simp only [Option.bind_some]
    have key : ∀ e, o.exitLocation = some e → ∃ b, o.exitBlock = some b := by
      intro e he
      unfold Cfg.Ordered.exitLocation at he
      cases hb : o.exitBlock with
      | none => rw [hb] at he; simp at he
      | some b => exact ⟨b, rfl⟩
    constructor
    · constructor
      · rintro ⟨e, he⟩
        obtain ⟨k, hk, hall⟩ := hf.1 (key e he)
        exact ⟨k, (hm k).1 hk, fun l hl => hall l ((hm l).2 hl)⟩
      · rintro ⟨k, hk, hall⟩
        obtain ⟨e, he⟩ := hf.2 ⟨k, (hm k).2 hk, fun l hl => hall l ((hm l).1 hl)⟩
        obtain ⟨_, i, hi, _⟩ := C39_exit hv (locs_lt s id true) h he
        exact ⟨_, hi⟩
    · intro e he
      obtain ⟨b, hb⟩ := key e he
      obtain ⟨h1, i, hi, h2, h3⟩ := C39_exit hv (locs_lt s id true) h hb
      rw [hi] at he
      cases he
      refine ⟨(hm _).1 h2, fun l hl => ⟨h1 l ((hm l).2 hl), ?_⟩⟩
      rintro hbl
      have hbl' : l.block = b := hbl
      exact h3 l.idx (by rw [← hbl']; exact (hm l).2 hl)

/-- **C99 (where a node begins, any control flow).** -/
theorem C99_begin {s : Source} (hv : Valid s.body) (id : Nat) :
    ((∃ e, (s.node id).entry = some e) ↔
      ∃ k, LocOf s id k ∧ ∀ l, LocOf s id l → Dominates s.body.succ k.block l.block) ∧
    ∀ e, (s.node id).entry = some e → LocOf s id e ∧
      ∀ l, LocOf s id l → Dominates s.body.succ e.block l.block ∧ (l.block = e.block → e.idx ≤ l.idx) := by
  change ((∃ e, (s.locations id true).bind Cfg.Ordered.entryLocation = some e) ↔ _) ∧
    ∀ e, (s.locations id true).bind Cfg.Ordered.entryLocation = some e → _
  cases h : s.locations id true with
  | none =>
    refine ⟨⟨by rintro ⟨e, he⟩; simp at he, ?_⟩, by intro e he; simp at he⟩
    rintro ⟨k, hk, _⟩
    exact absurd hk (exit_none h k)
  | some o =>
    have hm := mem_values h
    have hf := (C39_found hv (locs_lt s id true) h).1
    simp only [Option.bind_some]
    have key : ∀ e, o.entryLocation = some e → ∃ b, o.entryBlock = some b := by
      intro e he
      unfold Cfg.Ordered.entryLocation at he
      cases hb : o.entryBlock with
      | none => rw [hb] at he; simp at he
      | some b => exact ⟨b, rfl⟩
    constructor
    · constructor
      · rintro ⟨e, he⟩
        obtain ⟨k, hk, hall⟩ := hf.1 (key e he)
        exact ⟨k, (hm k).1 hk, fun l hl => hall l ((hm l).2 hl)⟩
      · rintro ⟨k, hk, hall⟩
        obtain ⟨e, he⟩ := hf.2 ⟨k, (hm k).2 hk, fun l hl => hall l ((hm l).1 hl)⟩
        obtain ⟨_, i, hi, _⟩ := C39_entry hv h he
        exact ⟨_, hi⟩
    · intro e he
      obtain ⟨b, hb⟩ := key e he
      obtain ⟨h1, i, hi, h2, h3⟩ := C39_entry hv h hb
      rw [hi] at he
      cases he
      refine ⟨(hm _).1 h2, fun l hl => ⟨h1 l ((hm l).2 hl), ?_⟩⟩
      rintro hbl
      have hbl' : l.block = b := hbl
      exact h3 l.idx (by rw [← hbl']; exact (hm l).2 hl)

/-- **C99 (declared variables).** A `let` declares the variables whose reading for the `let` is mapped to it. -/
theorem C99_declared (s : Source) (letId x : Nat) : x ∈ s.declared letId ↔
    ∃ l, (∃ d, s.body[l.block]? = some d ∧ l.idx ≤ d.stmts ∧ d.cleanup = false) ∧ RealLoc s.body l ∧
      s.hirOf l = letId ∧ s.letRead l = some x := by
  unfold Source.declared
  cases h : s.locations letId false with
  | none =>
    simp only [List.not_mem_nil, false_iff]
    rintro ⟨l, h1, _, h2, _⟩
    have : l ∈ gather (hirToMir s.body s.hirOf false) s.hir.parents letId false := (mem_locs s letId false l).2 ⟨h1, .inl h2⟩
    rw [(C39_none _ _).1 h] at this
    simp at this
  | some o =>
    have hm := (C39_values h (locs_lt s letId false)).2
    simp only [List.mem_filterMap, hm, mem_locs]
    constructor
    · rintro ⟨l, ⟨⟨h1, h2⟩, h3⟩, h4⟩
      exact ⟨l, h1, h3, by simpa using h2, h4⟩
    · rintro ⟨l, h1, h3, h2, h4⟩
      exact ⟨l, ⟨⟨h1, .inl h2⟩, h3⟩, h4⟩

/-! ## Straight lines -/

theorem LocOf.onPath {s : Source} {path : List Nat} (hc : Chain s.body path) {id : Nat} {l : Loc} (h : LocOf s id l) :
    l.block ∈ path := by
  obtain ⟨d, hd, _, hcl⟩ := h.inBody
  obtain ⟨d', hd', ht⟩ := h.real.2
  rw [hd] at hd'
  cases hd'
  exact hc.all _ ⟨d, hd, hcl, ht⟩

theorem IsLast.unique {path : List Nat} (hn : path.Nodup) {s : Source} {id : Nat} {e e' : Loc}
    (h : IsLast path s id e) (h' : IsLast path s id e') : e = e' :=
  (h'.2 e h.1).antisymm hn (h.2 e' h'.1)

/-- A non-empty set of locations, given by a list, has a last one. -/
theorem exists_last {path : List Nat} (hn : path.Nodup) (ls : List Loc) (hp : ∀ l ∈ ls, l.block ∈ path) (hne : ls ≠ []) :
    ∃ e ∈ ls, ∀ l ∈ ls, Before path l e := by
  induction ls with
  | nil => exact absurd rfl hne
  | cons x ls ih =>
    have hx := hp x List.mem_cons_self
    by_cases h : ls = []
    · subst h
      exact ⟨x, List.mem_cons_self, by simpa using Before.refl hx⟩
    · obtain ⟨e, he, hall⟩ := ih (fun l hl => hp l (List.mem_cons_of_mem _ hl)) h
      rcases Before.total hx (hp e (List.mem_cons_of_mem _ he)) with hb | hb
      · refine ⟨e, List.mem_cons_of_mem _ he, ?_⟩
        simpa using ⟨hb, hall⟩
      · refine ⟨x, List.mem_cons_self, ?_⟩
        simp only [List.mem_cons, forall_eq_or_imp]
        exact ⟨.refl hx, fun l hl => (hall l hl).trans hn hb⟩

theorem values_ne {s : Source} {id : Nat} {l : Loc} (h : LocOf s id l) :
    ∃ o, s.locations id true = some o ∧ l ∈ o.values := by
  cases ho : s.locations id true with
  | none => exact absurd h (exit_none ho l)
  | some o => exact ⟨o, rfl, (mem_values ho l).2 h⟩

/-- **C99 (the end of a node, straight line).** If the control flow is a straight line, every node with code has an
end, and it is the last location of the code of the node. -/
theorem C99_last {s : Source} (hv : Valid s.body) {path : List Nat} (hc : Chain s.body path) (id : Nat) (e : Loc) :
    (s.node id).exit = some e ↔ IsLast path s id e := by
  have hpd : ∀ {x y : Loc}, x.block ∈ path → y.block ∈ path →
      PostDominates s.body.succ s.body.returns x.block y.block → (x.block = y.block → x.idx ≤ y.idx) →
      Before path x y := by
    intro x y hx hy hp hi
    obtain ⟨i, hi'⟩ := List.mem_iff_getElem?.1 hx
    obtain ⟨j, hj⟩ := List.mem_iff_getElem?.1 hy
    have hij := (hc.postDominates hi' hj).1 hp
    refine ⟨i, j, hi', hj, ?_⟩
    rcases Nat.lt_or_eq_of_le hij with h | rfl
    · exact .inl h
    · rw [hi'] at hj
      exact .inr ⟨rfl, hi (Option.some.inj hj)⟩
  have hone : ∀ e, (s.node id).exit = some e → IsLast path s id e := by
    intro e he
    obtain ⟨h1, h2⟩ := (C99_end hv id).2 e he
    exact ⟨h1, fun l hl => hpd (hl.onPath hc) (h1.onPath hc) (h2 l hl).1 (h2 l hl).2⟩
  refine ⟨hone e, fun h => ?_⟩
  have : ∃ e, (s.node id).exit = some e := by
    refine (C99_end hv id).1.2 ⟨e, h.1, fun l hl => ?_⟩
    obtain ⟨i, j, hi, hj, hij⟩ := h.2 l hl
    exact (hc.postDominates hi hj).2 (by omega)
  obtain ⟨e', he'⟩ := this
  rw [he', (hone e' he').unique hc.nodup h]

/-- **C99 (the begin of a node, straight line).** -/
theorem C99_first {s : Source} (hv : Valid s.body) {path : List Nat} (hc : Chain s.body path) (id : Nat) (e : Loc) :
    (s.node id).entry = some e ↔ IsFirst path s id e := by
  have hone : ∀ e, (s.node id).entry = some e → IsFirst path s id e := by
    intro e he
    obtain ⟨h1, h2⟩ := (C99_begin hv id).2 e he
    refine ⟨h1, fun l hl => ?_⟩
    obtain ⟨i, hi⟩ := List.mem_iff_getElem?.1 (h1.onPath hc)
    obtain ⟨j, hj⟩ := List.mem_iff_getElem?.1 (hl.onPath hc)
    have hij := (hc.dominates hi hj).1 (h2 l hl).1
    refine ⟨i, j, hi, hj, ?_⟩
    rcases Nat.lt_or_eq_of_le hij with h | rfl
    · exact .inl h
    · rw [hi] at hj
      exact .inr ⟨rfl, (h2 l hl).2 (Option.some.inj hj).symm⟩
  refine ⟨hone e, fun h => ?_⟩
  have : ∃ e, (s.node id).entry = some e := by
    refine (C99_begin hv id).1.2 ⟨e, h.1, fun l hl => ?_⟩
    obtain ⟨i, j, hi, hj, hij⟩ := h.2 l hl
    exact (hc.dominates hi hj).2 (by omega)
  obtain ⟨e', he'⟩ := this
  have h' := hone e' he'
  rw [he', (h'.2 e h.1).antisymm hc.nodup (h.2 e' h'.1)]

/-- Every node with code has a last location. -/
theorem C99_has_end {s : Source} (hv : Valid s.body) {path : List Nat} (hc : Chain s.body path) (id : Nat) :
    (∃ e, (s.node id).exit = some e) ↔ ∃ l, LocOf s id l := by
  constructor
  · rintro ⟨e, he⟩
    exact ⟨e, ((C99_last hv hc id e).1 he).1⟩
  · rintro ⟨l, hl⟩
    obtain ⟨o, ho, hlo⟩ := values_ne hl
    have hm := mem_values ho
    obtain ⟨e, he, hall⟩ := exists_last hc.nodup o.values (fun l hl => ((hm l).1 hl).onPath hc)
      (List.ne_nil_of_mem hlo)
    exact ⟨e, (C99_last hv hc id e).2 ⟨(hm e).1 he, fun l hl => hall l ((hm l).2 hl)⟩⟩

/-! ## What is due -/

/-- What is due for a unit. -/
def dueUnit (s : Source) (id : Nat) : List Due := dueAfter s.body.locationSuccessor (s.node id)

theorem node_expr (s : Source) (e : RExpr) : (s.expr e).node = s.node e.id := by
  cases e <;> simp [Source.expr, Expr.node, RExpr.id]

mutual
theorem due_expr' (s : Source) (sw : Nat → Bool) : ∀ e : RExpr, straightExpr e = true →
    dueExpr sw s.body.locationSuccessor (s.expr e) = (unitsExpr e).flatMap (dueUnit s)
  | .other _ ps, h => by
    simp only [straightExpr] at h
    simpa [Source.expr, dueExpr, unitsExpr] using due_parts' s sw ps h
  | .ite .., h => by simp [straightExpr] at h
  | .whileLoop .., h => by simp [straightExpr] at h
  | .forLoop .., h => by simp [straightExpr] at h
  | .mtch .., h => by simp [straightExpr] at h
theorem due_opt' (s : Source) (sw : Nat → Bool) : ∀ e : Option RExpr, straightOpt e = true →
    dueOpt sw s.body.locationSuccessor (s.optExpr e) = (unitsOpt e).flatMap (dueUnit s)
  | none, _ => by simp [Source.optExpr, dueOpt, unitsOpt]
  | some e, h => by
    simp only [straightOpt] at h
    simpa [Source.optExpr, dueOpt, unitsOpt] using due_expr' s sw e h
theorem due_parts' (s : Source) (sw : Nat → Bool) : ∀ ps : List RPart, straightParts ps = true →
    dueParts sw s.body.locationSuccessor (s.parts ps) = (unitsParts ps).flatMap (dueUnit s)
  | [], _ => by simp [Source.parts, dueParts, unitsParts]
  | p :: r, h => by
    simp only [straightParts, Bool.and_eq_true] at h
    simp [Source.parts, dueParts, unitsParts, due_part' s sw p h.1, due_parts' s sw r h.2]
theorem due_part' (s : Source) (sw : Nat → Bool) : ∀ p : RPart, straightPart p = true →
    duePart sw s.body.locationSuccessor (s.part p) = (unitsPart p).flatMap (dueUnit s)
  | .expr e, h => by
    simp only [straightPart] at h
    simpa [Source.part, duePart, unitsPart] using due_expr' s sw e h
  | .block b, h => by
    simp only [straightPart] at h
    simpa [Source.part, duePart, unitsPart] using due_block' s sw b h
  | .body e, h => by
    simp only [straightPart] at h
    simp [Source.part, duePart, unitsPart, due_expr' s sw e h, node_expr, dueUnit]
theorem due_stmts' (s : Source) (sw : Nat → Bool) : ∀ ss : List RStmt, straightStmts ss = true →
    dueStmts sw s.body.locationSuccessor (s.stmts ss) = (unitsStmts ss).flatMap (dueUnit s)
  | [], _ => by simp [Source.stmts, dueStmts, unitsStmts]
  | x :: r, h => by
    simp only [straightStmts, Bool.and_eq_true] at h
    simp [Source.stmts, dueStmts, unitsStmts, due_stmt' s sw x h.1, due_stmts' s sw r h.2]
theorem due_stmt' (s : Source) (sw : Nat → Bool) : ∀ x : RStmt, straightStmt x = true →
    dueStmt sw s.body.locationSuccessor (s.stmt x) = (unitsStmt x).flatMap (dueUnit s)
  | .lt n _ i e, h => by
    simp only [straightStmt, Bool.and_eq_true] at h
    simp [Source.stmt, dueStmt, unitsStmt, due_opt' s sw i h.1, due_optBlock' s sw e h.2, dueUnit]
  | .expr n e, h => by
    simp only [straightStmt] at h
    simp [Source.stmt, dueStmt, unitsStmt, due_expr' s sw e h, dueUnit]
  | .item n ps, h => by
    simp only [straightStmt] at h
    simp [Source.stmt, dueStmt, unitsStmt, due_parts' s sw ps h, dueUnit]
theorem due_optBlock' (s : Source) (sw : Nat → Bool) : ∀ b : Option RBlock, straightOptBlock b = true →
    dueOptBlock sw s.body.locationSuccessor (s.optBlock b) = (unitsOptBlock b).flatMap (dueUnit s)
  | none, _ => by simp [Source.optBlock, dueOptBlock, unitsOptBlock]
  | some b, h => by
    simp only [straightOptBlock] at h
    simpa [Source.optBlock, dueOptBlock, unitsOptBlock] using due_block' s sw b h
theorem due_block' (s : Source) (sw : Nat → Bool) : ∀ b : RBlock, straightBlock b = true →
    dueBlock sw s.body.locationSuccessor (s.block b) = (unitsBlock b).flatMap (dueUnit s)
  | .mk _ ss none, h => by
    simp only [straightBlock, Bool.and_eq_true] at h
    simpa [Source.block, Source.optExpr, dueBlock, unitsBlock] using due_stmts' s sw ss h.1
  | .mk _ ss (some e), h => by
    simp only [straightBlock, Bool.and_eq_true, straightOpt] at h
    simp [Source.block, Source.optExpr, dueBlock, unitsBlock, due_stmts' s sw ss h.1, due_expr' s sw e h.2,
      node_expr, dueUnit]
end

theorem due_units (s : Source) (sw : Nat → Bool) {value : RExpr} (h : straightExpr value = true) :
    dueBody sw s.body.locationSuccessor (s.expr value) = (units value).flatMap (dueUnit s) := by
  simp [dueBody, units, due_expr' s sw value h, node_expr, dueUnit]

/-- The ends of the units that have code: the location after the last one, and the span of the unit. -/
def ends (s : Source) (us : List Nat) : List (Loc × Nat) :=
  us.filterMap fun u => (s.node u).exit.map fun e => (nextOf s.body e, s.span u)

theorem flatMap_due (s : Source) (us : List Nat) :
    us.flatMap (dueUnit s) = (ends s us).map fun x => Due.step x.1 x.2 := by
  induction us with
  | nil => rfl
  | cons u us ih =>
    rw [List.flatMap_cons, ih]
    unfold ends dueUnit dueAfter after nextOf
    rw [List.filterMap_cons]
    cases h : (s.node u).exit <;> rfl

/-- If the ends are in order along the path, the walk leaves none out. -/
theorem line_all {b : Body} (hv : Valid b) {path : List Nat} (hc : Chain b path) (es : List (Loc × Nat)) (c : Loc)
    (h : (c :: es.map (·.1)).Pairwise (Before path)) :
    line b.mapper c (es.map fun x => Due.step x.1 x.2) = consecutive c es := by
  induction es generalizing c with
  | nil => rfl
  | cons x es ih =>
    obtain ⟨l, sp⟩ := x
    rw [List.map_cons, List.pairwise_cons] at h
    have hb : Before path c l := h.1 l List.mem_cons_self
    have h1 : b.mapper.ldom c l = true := (hc.ldom hv hb.mem.1 hb.mem.2).2 hb
    have h2 : b.mapper.lpdom l c = true := (hc.lpdom hv hb.mem.2 hb.mem.1).2 hb
    rw [List.map_cons, line, if_pos (by rw [h1, h2]; rfl), consecutive, ih l h.2]

theorem ends_ordered {s : Source} (hv : Valid s.body) {path : List Nat} (hc : Chain s.body path) {us : List Nat}
    (ho : InOrder path s us) : (startLoc :: (ends s us).map (·.1)).Pairwise (Before path) := by
  have hfirst : ∀ {e : Loc} {u : Nat}, (s.node u).exit = some e → (nextOf s.body e).block ∈ path := by
    intro e u he
    have hl := ((C99_last hv hc u e).1 he).1
    obtain ⟨d, hd, hi, _⟩ := hl.inBody
    exact (hc.next_mono hd hi hd hi (.refl (hl.onPath hc))).mem.1
  rw [List.pairwise_cons]
  constructor
  · intro l hl
    simp only [ends, List.mem_map, List.mem_filterMap, Option.map_eq_some_iff] at hl
    obtain ⟨⟨l', sp⟩, ⟨u, _, e, he, h1⟩, rfl⟩ := hl
    simp only [Prod.mk.injEq] at h1
    have hm : l'.block ∈ path := by rw [← h1.1]; exact hfirst he
    obtain ⟨j, hj⟩ := List.mem_iff_getElem?.1 hm
    exact ⟨0, j, hc.head, hj, by show 0 < j ∨ 0 = j ∧ 0 ≤ l'.idx; omega⟩
  · rw [List.pairwise_map]
    unfold ends
    rw [List.pairwise_filterMap]
    refine ho.imp ?_
    intro u w h x hx y hy
    simp only [Option.map_eq_some_iff] at hx hy
    obtain ⟨e, he, rfl⟩ := hx
    obtain ⟨e', he', rfl⟩ := hy
    have h1 := (C99_last hv hc u e).1 he
    have h2 := (C99_last hv hc w e').1 he'
    obtain ⟨d, hd, hi, _⟩ := h1.1.inBody
    obtain ⟨d', hd', hi', _⟩ := h2.1.inBody
    refine hc.next_mono hd hi hd' hi' ?_
    rcases h with h | h
    · refine h2.2 e ⟨h1.1.inBody, ?_, h1.1.real⟩
      have hb := h1.1.below
      clear h1 h2 he he'
      generalize s.hirOf e = z at hb
      induction hb with
      | here => exact h
      | up hp _ ih => exact .up hp ih
    · exact h _ _ h1.1 h2.1

/-- **C99.** In a function whose control flow is a straight line and whose code is laid out in the order of the
source, every statement, final expression and body that has code gets its own step, in the order of their ends.  The
step begins where the one before ended, at first at the start of the function, and ends right after the last location
of the code. -/
theorem C99_statements {s : Source} (hv : Valid s.body) {path : List Nat} (hc : Chain s.body path) {fuel : Nat}
    (hfu : fuel ≠ 0) (order : List (Loc × Nat) → List (Loc × Nat)) {value : RExpr} (hs : straightExpr value = true)
    (ho : InOrder path s (units value)) :
    ∃ f locals, s.compute fuel order value = .steps f locals ∧
      f.segs.map (fun g => (g.from, g.to, g.span)) = consecutive startLoc (ends s (units value)) ∧
      f.branches = [] := by
  have hd := due_units s s.body.mapper.isSwitch hs
  rw [flatMap_due] at hd
  obtain ⟨f, locals, h1, h2, h3, _⟩ := C89_straight s.body hfu order (s.expr value)
    (by intro l; rw [hd]; simp) (by rw [hd]; simp)
  refine ⟨f, locals, h1, ?_, h3⟩
  rw [h2, hd, line_all hv hc _ _ (ends_ordered hv hc ho)]

theorem mem_consecutive (c : Loc) (es : List (Loc × Nat)) (x : Loc × Nat) (h : x ∈ es) :
    ∃ a, (a, x.1, x.2) ∈ consecutive c es := by
  induction es generalizing c with
  | nil => simp at h
  | cons y es ih =>
    rcases List.mem_cons.1 h with rfl | h
    · exact ⟨c, by simp [consecutive]⟩
    · obtain ⟨a, ha⟩ := ih y.1 h
      exact ⟨a, by rw [consecutive]; exact List.mem_cons_of_mem _ ha⟩

/-- **C99 (own step).** Every statement with code has a step that is shown at it and ends right after its last
location. -/
theorem C99_own {s : Source} (hv : Valid s.body) {path : List Nat} (hc : Chain s.body path) {fuel : Nat}
    (hfu : fuel ≠ 0) (order : List (Loc × Nat) → List (Loc × Nat)) {value : RExpr} (hs : straightExpr value = true)
    (ho : InOrder path s (units value)) {f : Frozen} {locals : List (Nat × List Nat)}
    (hf : s.compute fuel order value = .steps f locals) {u : Nat} (hu : u ∈ units value) {e : Loc}
    (he : IsLast path s u e) : ∃ g ∈ f.segs, g.to = nextOf s.body e ∧ g.span = s.span u := by
  obtain ⟨f', locals', h1, h2, _⟩ := C99_statements hv hc hfu order hs ho
  rw [hf] at h1
  cases h1
  obtain ⟨a, ha⟩ := mem_consecutive startLoc (ends s (units value)) (nextOf s.body e, s.span u) (by
    simp only [ends, List.mem_filterMap, Option.map_eq_some_iff, Prod.mk.injEq]
    exact ⟨u, hu, e, (C99_last hv hc u e).2 he, rfl, rfl⟩)
  rw [← h2, List.mem_map] at ha
  obtain ⟨g, hg, hx⟩ := ha
  simp only [Prod.mk.injEq] at hx
  exact ⟨g, hg, hx.2⟩

end Verif.HirSource
