import Verif.Pipeline.Examples
import Verif.HirSteps.Around

/-! # C97: which variables a step leaves out, in terms of the source -/
namespace Verif.Pipeline

open Verif.Cfg Verif.Segments Verif.Steps Verif.Permissions Verif.HirSteps

theorem declares_of {locals : List (Nat × List Nat)} {s x : Nat} (h : DeclaredAt locals s x) : Declares locals s x := by
  induction h with
  | here h _ => exact ⟨_, List.mem_cons_self, rfl, h⟩
  | later _ ih =>
    obtain ⟨e, h1, h2⟩ := ih
    exact ⟨e, List.mem_cons_of_mem _ h1, h2⟩

/-- **C97 (nothing is left out).** For any control flow: if no step is due in the initialiser or the `else` of the
`let`s that declare a variable, every step of the function has a table with the changes of this variable and its
parts, and no table of a branch has them a second time. -/
theorem C97_not_hidden {E : Env} {value : Expr} {f : Frozen} {locals : List (Nat × List Nat)}
    (hf : compute E value = .steps f locals) {c : Ctxt} {p : Place} (hp : p ∈ c.places)
    (hx : ∀ e ∈ letsExpr E.m.isSwitch E.next value, p.local_ ∈ e.1 → e.2 = []) :
    (∀ sid s, f.segs[sid]? = some s →
      Covers c f locals (.seg sid) p (c.data s.from p) (c.data s.to p) (c.endOf s.span)) ∧
    ∀ bid a b hi, ¬ Covers c f locals (.attached bid) p a b hi := by
  have h := no_step_inside hf hx
  refine ⟨fun sid s hs => .seg hp hs fun sc ha hd => h s (List.mem_of_getElem? hs) sc (.inr ha) (declares_of hd), ?_⟩
  rintro bid a b hi hc
  cases hc with
  | attached _ _ _ hs hd => exact h _ (List.mem_of_getElem? hs) _ (.inl rfl) (declares_of hd)

/-- **C97 (the whole story of a variable).** The same as `C97_story`, with a condition on the source instead of one
on scopes: in a function without conditionals, if the `let`s that declare the variable have nothing due inside and
the steps that change a place of the variable end on different lines, the rows tell the permissions of the place
after every step. -/
theorem C97_story_source {b : Body} {fuel : Nat} {ord : List (Loc × Nat) → List (Loc × Nat)} {value : Expr}
    (hst : Straight b fuel ord value) {c : Ctxt} (hstart : c.start = startLoc) {order : Tables → Tables}
    (ho : ∀ m, (order m).Perm m) {src : List Char} {visible : Place → Bool} {f : Frozen}
    {locals : List (Nat × List Nat)} {ds : List Display}
    (hf : compute (.ofBody b fuel ord) value = .steps f locals)
    (hd : finalizeBody c f locals order src none visible .changes = some ds)
    {p : Place} (hp : p ∈ c.places) (hv : visible p = true)
    (hx : ∀ e ∈ letsExpr b.mapper.isSwitch b.locationSuccessor value, p.local_ ∈ e.1 → e.2 = [])
    (hu : ∀ (i j : Nat) (s s' : Seg), f.segs[i]? = some s → f.segs[j]? = some s' →
      (c.data s.from p).permissions ≠ (c.data s.to p).permissions →
      (c.data s'.from p).permissions ≠ (c.data s'.to p).permissions →
      lineOf src (c.endOf s.span) = lineOf src (c.endOf s'.span) → i = j)
    (hb : ∀ (i : Nat) (s : Seg), f.segs[i]? = some s → (c.data s.from p).permissions ≠ (c.data s.to p).permissions →
      bottomData.permissions ≠ (c.data c.start p).permissions → lineOf src (c.endOf s.span) ≠ lineOf src c.brace)
    {k : Nat} {s : Seg} (hs : f.segs[k]? = some s) :
    (∃ j sj d, j ≤ k ∧ f.segs[j]? = some sj ∧ Shown src ds (lineOf src (c.endOf sj.span)) p d ∧
      Says d (c.data sj.from p).permissions (c.data s.to p).permissions ∧
      ∀ i si, j < i → i ≤ k → f.segs[i]? = some si →
        (c.data si.from p).permissions = (c.data si.to p).permissions) ∨
    ((∀ i si, i ≤ k → f.segs[i]? = some si → (c.data si.from p).permissions = (c.data si.to p).permissions) ∧
      ((∃ d, Shown src ds (lineOf src c.brace) p d ∧ Says d ⟨false, false, false⟩ (c.data s.to p).permissions) ∨
        (c.data s.to p).permissions = ⟨false, false, false⟩)) := by
  have h := no_step_inside hf hx
  have hatt := (C97_not_hidden (c := c) hf hp hx).2
  refine C97_story hst hstart ho hf hd hp hv
    (fun s hs sc ha hd => h s hs sc (.inr ha) (declares_of hd)) ?_ hs
  intro t x y hi t' x' y' hi' h1 h2 n1 n2 hl
  cases h1 with
  | attached a1 a2 a3 a4 a5 => exact (hatt _ _ _ _ (.attached a1 a2 a3 a4 a5)).elim
  | entry _ =>
    cases h2 with
    | attached a1 a2 a3 a4 a5 => exact (hatt _ _ _ _ (.attached a1 a2 a3 a4 a5)).elim
    | entry _ => rfl
    | seg _ hs' _ => exact (hb _ _ hs' n2 n1 hl.symm).elim
  | seg _ hs1 _ =>
    cases h2 with
    | attached a1 a2 a3 a4 a5 => exact (hatt _ _ _ _ (.attached a1 a2 a3 a4 a5)).elim
    | entry _ => exact (hb _ _ hs1 n1 n2 hl).elim
    | seg _ hs2 _ => rw [hu _ _ _ _ hs1 hs2 n1 n2 hl]

/-! ## The condition on the source -/

/-- `let x = 1;` has nothing due inside, -/
example : letsExpr oneBlock.mapper.isSwitch oneBlock.locationSuccessor openFn = [([1], [])] := by
  simp only [openFn, blockOf, stm, leaf, letsExpr, letsParts, letsPart, letsBlock, letsStmts, letsStmt, letsOpt,
    letsOptBlock, dueOpt, dueExpr, dueParts, dueOptBlock]
  decide +kernel

/-- `let x = { 1 };` has, and there the conclusion fails (`C97_block_hides`). -/
example : letsExpr oneBlock.mapper.isSwitch oneBlock.locationSuccessor hiddenFn = [([1], [.step ⟨0, 1⟩ 40])] := by
  simp only [hiddenFn, blockOf, stm, leaf, letsExpr, letsParts, letsPart, letsBlock, letsStmts, letsStmt, letsOpt,
    letsOptBlock, dueOpt, dueExpr, dueParts, dueOptBlock, duePart, dueBlock, dueStmts]
  decide +kernel

end Verif.Pipeline
