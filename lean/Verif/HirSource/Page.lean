import Verif.HirSource.Props
import Verif.Pipeline.Around

/-! # C99: what the page tells about the statements of a function -/
namespace Verif.HirSource

open Verif.Cfg Verif.Mapper Verif.HirSteps Verif.Graph Verif.Segments Verif.Pipeline Verif.Steps Verif.Permissions

mutual
/-- The `let`s of a tree, each with the statements, final expressions and bodies inside it. -/
def letsInExpr : RExpr → List (Nat × List Nat)
  | .other _ ps => letsInParts ps
  | _ => []
def letsInOpt : Option RExpr → List (Nat × List Nat)
  | none => []
  | some e => letsInExpr e
def letsInParts : List RPart → List (Nat × List Nat)
  | [] => []
  | p :: r => letsInPart p ++ letsInParts r
def letsInPart : RPart → List (Nat × List Nat)
  | .expr e => letsInExpr e
  | .block b => letsInBlock b
  | .body e => letsInExpr e
def letsInStmts : List RStmt → List (Nat × List Nat)
  | [] => []
  | x :: r => letsInStmt x ++ letsInStmts r
def letsInStmt : RStmt → List (Nat × List Nat)
  | .lt _ l i e => (l, unitsOpt i ++ unitsOptBlock e) :: (letsInOpt i ++ letsInOptBlock e)
  | .expr _ e => letsInExpr e
  | .item _ ps => letsInParts ps
def letsInOptBlock : Option RBlock → List (Nat × List Nat)
  | none => []
  | some b => letsInBlock b
def letsInBlock : RBlock → List (Nat × List Nat)
  | .mk _ ss e => letsInStmts ss ++ letsInOpt e
end

/-- What the visitor of the steps sees of a `let`. -/
def seen (s : Source) (x : Nat × List Nat) : List Nat × List Due := (s.declared x.1, x.2.flatMap (dueUnit s))

mutual
theorem lets_expr (s : Source) (sw : Nat → Bool) : ∀ e : RExpr, straightExpr e = true →
    letsExpr sw s.body.locationSuccessor (s.expr e) = (letsInExpr e).map (seen s)
  | .other _ ps, h => by
    simp only [straightExpr] at h
    simpa [Source.expr, letsExpr, letsInExpr] using lets_parts s sw ps h
  | .ite .., h => by simp [straightExpr] at h
  | .whileLoop .., h => by simp [straightExpr] at h
  | .forLoop .., h => by simp [straightExpr] at h
  | .mtch .., h => by simp [straightExpr] at h
theorem lets_opt (s : Source) (sw : Nat → Bool) : ∀ e : Option RExpr, straightOpt e = true →
    letsOpt sw s.body.locationSuccessor (s.optExpr e) = (letsInOpt e).map (seen s)
  | none, _ => by simp [Source.optExpr, letsOpt, letsInOpt]
  | some e, h => by
    simp only [straightOpt] at h
    simpa [Source.optExpr, letsOpt, letsInOpt] using lets_expr s sw e h
theorem lets_parts (s : Source) (sw : Nat → Bool) : ∀ ps : List RPart, straightParts ps = true →
    letsParts sw s.body.locationSuccessor (s.parts ps) = (letsInParts ps).map (seen s)
  | [], _ => by simp [Source.parts, letsParts, letsInParts]
  | p :: r, h => by
    simp only [straightParts, Bool.and_eq_true] at h
    simp [Source.parts, letsParts, letsInParts, lets_part s sw p h.1, lets_parts s sw r h.2]
theorem lets_part (s : Source) (sw : Nat → Bool) : ∀ p : RPart, straightPart p = true →
    letsPart sw s.body.locationSuccessor (s.part p) = (letsInPart p).map (seen s)
  | .expr e, h => by
    simp only [straightPart] at h
    simpa [Source.part, letsPart, letsInPart] using lets_expr s sw e h
  | .block b, h => by
    simp only [straightPart] at h
    simpa [Source.part, letsPart, letsInPart] using lets_block s sw b h
  | .body e, h => by
    simp only [straightPart] at h
    simpa [Source.part, letsPart, letsInPart] using lets_expr s sw e h
theorem lets_stmts (s : Source) (sw : Nat → Bool) : ∀ ss : List RStmt, straightStmts ss = true →
    letsStmts sw s.body.locationSuccessor (s.stmts ss) = (letsInStmts ss).map (seen s)
  | [], _ => by simp [Source.stmts, letsStmts, letsInStmts]
  | x :: r, h => by
    simp only [straightStmts, Bool.and_eq_true] at h
    simp [Source.stmts, letsStmts, letsInStmts, lets_stmt s sw x h.1, lets_stmts s sw r h.2]
theorem lets_stmt (s : Source) (sw : Nat → Bool) : ∀ x : RStmt, straightStmt x = true →
    letsStmt sw s.body.locationSuccessor (s.stmt x) = (letsInStmt x).map (seen s)
  | .lt n l i e, h => by
    simp only [straightStmt, Bool.and_eq_true] at h
    simp [Source.stmt, letsStmt, letsInStmt, seen, lets_opt s sw i h.1, lets_optBlock s sw e h.2,
      due_opt' s sw i h.1, due_optBlock' s sw e h.2]
  | .expr n e, h => by
    simp only [straightStmt] at h
    simpa [Source.stmt, letsStmt, letsInStmt] using lets_expr s sw e h
  | .item n ps, h => by
    simp only [straightStmt] at h
    simpa [Source.stmt, letsStmt, letsInStmt] using lets_parts s sw ps h
theorem lets_optBlock (s : Source) (sw : Nat → Bool) : ∀ b : Option RBlock, straightOptBlock b = true →
    letsOptBlock sw s.body.locationSuccessor (s.optBlock b) = (letsInOptBlock b).map (seen s)
  | none, _ => by simp [Source.optBlock, letsOptBlock, letsInOptBlock]
  | some b, h => by
    simp only [straightOptBlock] at h
    simpa [Source.optBlock, letsOptBlock, letsInOptBlock] using lets_block s sw b h
theorem lets_block (s : Source) (sw : Nat → Bool) : ∀ b : RBlock, straightBlock b = true →
    letsBlock sw s.body.locationSuccessor (s.block b) = (letsInBlock b).map (seen s)
  | .mk _ ss e, h => by
    simp only [straightBlock, Bool.and_eq_true] at h
    simp [Source.block, letsBlock, letsInBlock, lets_stmts s sw ss h.1, lets_opt s sw e h.2]
end

theorem straight_source (s : Source) {fuel : Nat} (hfu : fuel ≠ 0) (ord : List (Loc × Nat) → List (Loc × Nat))
    {value : RExpr} (hs : straightExpr value = true) : Straight s.body fuel ord (s.expr value) := by
  have hd := due_units s s.body.mapper.isSwitch hs
  rw [flatMap_due] at hd
  exact ⟨hfu, by intro l; rw [hd]; simp, by rw [hd]; simp⟩

/-- **C99 (the page, statement by statement).** In a function whose control flow is a straight line and whose code is
laid out in the order of the source, take a visible place of a variable whose `let`s have no statement or final
expression with code inside.  If the steps that change its permissions end on different lines, then for every statement
with code the rows of the page tell the permissions of the place right after it: the last row of a step up to this one
that changes them says what they are now, and none means they are as on entry. -/
theorem C99_page {s : Source} (hv : Valid s.body) {path : List Nat} (hc : Chain s.body path) {fuel : Nat}
    (hfu : fuel ≠ 0) {ord : List (Loc × Nat) → List (Loc × Nat)} {value : RExpr} (hs : straightExpr value = true)
    (ho : InOrder path s (units value)) {c : Ctxt} (hstart : c.start = startLoc) {order : Tables → Tables}
    (hperm : ∀ m, (order m).Perm m) {src : List Char} {visible : Place → Bool} {f : Frozen}
    {locals : List (Nat × List Nat)} {ds : List Display} (hf : s.compute fuel ord value = .steps f locals)
    (hd : finalizeBody c f locals order src none visible .changes = some ds)
    {p : Place} (hp : p ∈ c.places) (hvis : visible p = true)
    (hx : ∀ e ∈ letsInExpr value, p.local_ ∈ s.declared e.1 → ∀ u ∈ e.2, ∀ l, ¬ LocOf s u l)
    (hu : ∀ (i j : Nat) (g g' : Seg), f.segs[i]? = some g → f.segs[j]? = some g' →
      (c.data g.from p).permissions ≠ (c.data g.to p).permissions →
      (c.data g'.from p).permissions ≠ (c.data g'.to p).permissions →
      lineOf src (c.endOf g.span) = lineOf src (c.endOf g'.span) → i = j)
    (hb : ∀ (i : Nat) (g : Seg), f.segs[i]? = some g → (c.data g.from p).permissions ≠ (c.data g.to p).permissions →
      bottomData.permissions ≠ (c.data c.start p).permissions → lineOf src (c.endOf g.span) ≠ lineOf src c.brace)
    {u : Nat} (huv : u ∈ units value) {e : Loc} (he : IsLast path s u e) :
    ∃ (k : Nat) (g : Seg), f.segs[k]? = some g ∧ g.span = s.span u ∧
    ((∃ (j : Nat) (gj : Seg) (d : DataDiff), j ≤ k ∧ f.segs[j]? = some gj ∧ Shown src ds (lineOf src (c.endOf gj.span)) p d ∧
      Says d (c.data gj.from p).permissions (c.data (nextOf s.body e) p).permissions ∧
      ∀ (i : Nat) (gi : Seg), j < i → i ≤ k → f.segs[i]? = some gi →
        (c.data gi.from p).permissions = (c.data gi.to p).permissions) ∨
    ((∀ (i : Nat) (gi : Seg), i ≤ k → f.segs[i]? = some gi → (c.data gi.from p).permissions = (c.data gi.to p).permissions) ∧
      ((∃ d, Shown src ds (lineOf src c.brace) p d ∧
        Says d ⟨false, false, false⟩ (c.data (nextOf s.body e) p).permissions) ∨
        (c.data (nextOf s.body e) p).permissions = ⟨false, false, false⟩))) := by
  obtain ⟨g, hg, hto, hsp⟩ := C99_own hv hc hfu ord hs ho hf huv he
  obtain ⟨k, hk⟩ := List.mem_iff_getElem?.1 hg
  refine ⟨k, g, hk, hsp, ?_⟩
  rw [← hto]
  refine C97_story_source (straight_source s hfu ord hs) hstart hperm hf hd hp hvis ?_ hu hb hk
  intro x hxm hxl
  rw [lets_expr s _ value hs, List.mem_map] at hxm
  obtain ⟨y, hy, rfl⟩ := hxm
  show y.2.flatMap (dueUnit s) = []
  rw [List.flatMap_eq_nil_iff]
  intro w hw
  have hn : (s.node w).exit = none := by
    cases hex : (s.node w).exit with
    | none => rfl
    | some e' => exact absurd ((C99_last hv hc w e').1 hex).1 (hx y hy hxl w hw e')
  unfold dueUnit dueAfter after
  rw [hn]
  rfl

end Verif.HirSource
