import Verif.Pipeline.SourceProps
import Verif.Pipeline.Ways
/-!
# C109: the assumptions can be met for every program, and two programs
-/
namespace Verif.Pipeline

open Verif.Cfg Verif.Segments Verif.Steps Verif.Permissions Verif.HirSteps
open Verif.Facts.Spec (WillUse Analysed Accepted Unborrowed)

/-! ## Facts for every program -/

/-- All locations of a body. -/
def locsOf (b : Body) : List Loc :=
  (List.range b.length).flatMap fun k => match b[k]? with
    | none => []
    | some d => (List.range (d.stmts + 1)).map fun n => ⟨k, n⟩

theorem mem_locsOf {b : Body} {l : Loc} : l ∈ locsOf b ↔ Inside b l := by
  unfold locsOf Inside
  rw [List.mem_flatMap]
  constructor
  · rintro ⟨k, _, h⟩
    cases hb : b[k]? with
    | none => rw [hb] at h; cases h
    | some d =>
      rw [hb] at h
      obtain ⟨n, hn, rfl⟩ := List.mem_map.1 h
      exact ⟨d, hb, by have := List.mem_range.1 hn; dsimp only; omega⟩
  · rintro ⟨d, h1, h2⟩
    obtain ⟨hk, _⟩ := List.getElem?_eq_some_iff.1 h1
    refine ⟨l.block, List.mem_range.2 hk, ?_⟩
    rw [h1]
    exact List.mem_map.2 ⟨l.idx, List.mem_range.2 (by omega), rfl⟩

/-- The locations that come right after one. -/
def nextsOf (b : Body) (l : Loc) : List Loc :=
  match b[l.block]? with
  | none => []
  | some d => if l.idx < d.stmts then [⟨l.block, l.idx + 1⟩]
    else if l.idx = d.stmts then d.term.targets.map (fun t => ⟨t, 0⟩) else []

theorem mem_nextsOf {b : Body} {l l' : Loc} : l' ∈ nextsOf b l ↔ Next b l l' := by
  unfold nextsOf Next
  cases hb : b[l.block]? with
  | none => simp
  | some d =>
    simp only [Option.some.injEq]
    constructor
    · intro h
      refine ⟨d, rfl, ?_⟩
      split at h
      · exact .inl ⟨by assumption, List.mem_singleton.1 h⟩
      · split at h
        · obtain ⟨t, ht, rfl⟩ := List.mem_map.1 h
          exact .inr ⟨by assumption, t, ht, rfl⟩
        · cases h
    · rintro ⟨d', rfl, h⟩
      rcases h with ⟨h1, rfl⟩ | ⟨h1, t, ht, rfl⟩
      · rw [if_pos h1]
        exact List.mem_singleton.2 rfl
      · rw [if_neg (by omega), if_pos h1]
        exact List.mem_map.2 ⟨t, ht, rfl⟩

/-- The edges between points. -/
def edgesOf (b : Body) : List (Nat × Nat) :=
  (locsOf b).flatMap fun l => (point b l, point b l + 1) :: (nextsOf b l).map fun l' => (point b l + 1, point b l')

theorem mem_edgesOf {b : Body} {x y : Nat} : (x, y) ∈ edgesOf b ↔
    (∃ l, Inside b l ∧ x = point b l ∧ y = point b l + 1) ∨
      ∃ l l', Inside b l ∧ Next b l l' ∧ x = point b l + 1 ∧ y = point b l' := by
  unfold edgesOf
  simp only [List.mem_flatMap, List.mem_cons, List.mem_map, Prod.mk.injEq, mem_locsOf, mem_nextsOf]
  constructor
  · rintro ⟨l, hl, h | ⟨l', hn, h1, h2⟩⟩
    · exact .inl ⟨l, hl, h.1, h.2⟩
    · exact .inr ⟨l, l', hl, hn, h1.symm, h2.symm⟩
  · rintro (⟨l, hl, h1, h2⟩ | ⟨l, l', hl, hn, h1, h2⟩)
    · exact ⟨l, hl, .inl ⟨h1, h2⟩⟩
    · exact ⟨l, hl, .inr ⟨l', hn, h1.symm, h2.symm⟩⟩

/-- The uses of the variable `0`, as the borrow checker states them; and in the same way where it is set. -/
def mentionedAt (b : Body) (at_ : Loc → Bool) (v q : Nat) : Prop :=
  v = 0 ∧ ∃ l, Inside b l ∧ at_ l = true ∧ q = point b l + 1

/-- Facts of a function in which nothing is moved, uninitialised or borrowed. -/
def bare (b : Body) (w d : Bool) (live : List (Nat × Nat)) : Facts.Input where
  cfgEdge := edgesOf b
  uninitExit := []
  childPath := []
  moves := []
  interior := fun _ => []
  parents := fun _ => []
  assigned := []
  conflict := fun _ _ => false
  issued := []
  borrowed := fun _ => 0
  isMutLoan := fun _ => false
  loanLive := []
  paths := [0]
  varLive := live
  varOf := fun _ => 0
  writeEnabled := fun _ => w
  dropEnabled := fun _ => d
  copyable := fun _ => false

theorem willUse_edges {i j : Facts.Input} (h : i.cfgEdge = j.cfgEdge) {used defined : Nat → Nat → Prop} {v q : Nat} :
    WillUse i used defined v q ↔ WillUse j used defined v q := by
  constructor
  · intro hw
    induction hw with
    | use hu => exact .use hu
    | later he hd _ ih => exact .later (h ▸ he) hd ih
  · intro hw
    induction hw with
    | use hu => exact .use hu
    | later he hd _ ih => exact .later (h.symm ▸ he) hd ih

/-- **C109 (every program can be analysed).** For every program and every choice of the locations that use the variable
and of those that set it there are facts that meet the assumptions of C109, and a context whose permissions are computed
from them. -/
theorem C109_possible (p : Walk.Prog) (uses sets : Loc → Bool) (w d : Bool) (c : Ctxt) (x : Place) :
    ∃ (i : Facts.Input) (used defined : Nat → Nat → Prop) (data : Loc → Place → Data),
      Tracked { c with data := data } p.body i used defined x 0 ∧ Rests p i 0 ∧ Flow p.body i ∧
      Mentions p.body used defined (i.varOf 0) uses sets ∧ i.writeEnabled 0 = w ∧ i.dropEnabled 0 = d := by
  classical
  let used := mentionedAt p.body uses
  let defined := mentionedAt p.body sets
  let i₀ := bare p.body w d []
  let all := (locsOf p.body).flatMap fun l => [point p.body l, point p.body l + 1]
  let i := bare p.body w d ((all.filter fun q => decide (WillUse i₀ used defined 0 q)).map fun q => (q, 0))
  obtain ⟨fuel, o, ho⟩ := Facts.C24_terminates i
  have hflow : Flow p.body i := fun x y => mem_edgesOf
  have hall : ∀ l, Inside p.body l → point p.body l ∈ all ∧ point p.body l + 1 ∈ all := by
    intro l hl
    exact ⟨List.mem_flatMap.2 ⟨l, mem_locsOf.2 hl, by simp⟩, List.mem_flatMap.2 ⟨l, mem_locsOf.2 hl, by simp⟩⟩
  have hzero : ∀ v q, WillUse i used defined v q → v = 0 ∧ q ∈ all := by
    intro v q hw
    induction hw with
    | use hu =>
      obtain ⟨rfl, l, hl, _, rfl⟩ := hu
      exact ⟨rfl, (hall l hl).2⟩
    | later he _ _ ih =>
      refine ⟨ih.1, ?_⟩
      rcases mem_edgesOf.1 he with ⟨l, hl, rfl, _⟩ | ⟨l, l', hl, _, rfl, _⟩
      · exact (hall l hl).1
      · exact (hall l hl).2
  refine ⟨i, used, defined, fun l _ => Facts.dataAtPoint i o 0 (point p.body l), ?_, ?_, hflow, ?_, rfl, rfl⟩
  · refine ⟨⟨fuel, o, ho, fun _ => rfl⟩, ?_, ?_, by intro l hl; cases hl⟩
    · refine ⟨?_, ?_, ?_, ?_, ?_, by intro d p q h; cases h⟩
      · intro k q he
        rcases (hflow _ _).1 he with ⟨l, _, h1, h2⟩ | ⟨l, l', _, _, h1, h2⟩
        · omega
        · obtain ⟨k', hk'⟩ := point_even p.body l
          omega
      · intro k q he
        rcases (hflow _ _).1 he with ⟨l, _, h1, h2⟩ | ⟨l, l', _, _, h1, h2⟩
        · obtain ⟨k', hk'⟩ := point_even p.body l
          omega
        · obtain ⟨k', hk'⟩ := point_even p.body l'
          exact ⟨k', by omega⟩
      · rintro v q ⟨_, l, hl, _, rfl⟩
        obtain ⟨k', hk'⟩ := point_even p.body l
        exact ⟨k', by omega, (hflow _ _).2 (.inl ⟨l, hl, by omega, rfl⟩)⟩
      · rintro v q ⟨_, l, hl, _, rfl⟩
        obtain ⟨k', hk'⟩ := point_even p.body l
        exact ⟨k', by omega⟩
      · intro v q
        show (q, v) ∈ (all.filter fun q => decide (WillUse i₀ used defined 0 q)).map (fun q => (q, 0)) ↔ _
        rw [List.mem_map]
        constructor
        · rintro ⟨q', h1, h2⟩
          cases h2
          exact (willUse_edges (i := i₀) (j := i) rfl).1 (of_decide_eq_true (List.mem_filter.1 h1).2)
        · intro hw
          obtain ⟨rfl, hq⟩ := hzero v q hw
          exact ⟨q, List.mem_filter.2 ⟨hq, decide_eq_true ((willUse_edges (i := i) (j := i₀) rfl).1 hw)⟩, rfl⟩
    · refine ⟨?_, ?_, ?_, ?_⟩
      · intro k mv p₀ s _ h
        cases h
      · intro k d _ _ h
        cases h
      · rintro mv q ⟨p₀, s, h, _⟩
        cases h
      · rintro q ⟨d, e, pred, _, _, h, _⟩
        cases h
  · intro l _
    refine ⟨?_, ?_⟩
    · rintro mv ⟨p₀, s, h, _⟩
      cases h
    · rintro ⟨d, e, pred, _, _, h, _⟩
      cases h
  · intro l hl
    have key : ∀ f : Loc → Bool, mentionedAt p.body f 0 (point p.body l + 1) ↔ f l = true := by
      intro f
      constructor
      · rintro ⟨_, l', hl', hf, he⟩
        obtain rfl := point_inj hl hl' (by omega)
        exact hf
      · intro hf
        exact ⟨rfl, l, hl, hf, rfl⟩
    exact ⟨key uses, key sets⟩

/-! ## `{ let x = ..; drop(x); w = 1; }` -/

namespace LivingExample

open Verif.Facts

def uses (l : Loc) : Bool := l == ⟨0, 1⟩

def sets (l : Loc) : Bool := l == ⟨0, 0⟩

theorem mentions : Mentions prog.body LiveExample.used LiveExample.defined (LiveExample.facts.varOf 0) uses sets := by
  rintro ⟨bl, n⟩ hl
  obtain ⟨h1, h2⟩ := inside.1 hl
  dsimp only at h1 h2
  subst h1
  rw [point_here]
  have : n = 0 ∨ n = 1 ∨ n = 2 ∨ n = 3 ∨ n = 4 := by omega
  rcases this with rfl | rfl | rfl | rfl | rfl <;>
    simp [LiveExample.used, LiveExample.defined, LiveExample.facts, uses, sets]

/-- The assumptions of C109 and what the source says: of use after the `let`, no more after the `drop`. -/
example : Mentions prog.body LiveExample.used LiveExample.defined (LiveExample.facts.varOf 0) uses sets ∧
    (toldAll uses sets prog 9).map (·.2) = [(false, true), (true, false), (false, false), (false, false)] ∧
    prog.live uses sets 0 0 false = false :=
  ⟨mentions, by decide, by decide⟩

end LivingExample

/-! ## `let x = ..; while c() { if d() { use(x); } else { .. } }; y = 1; x = ..; use(x)` -/

namespace SourceLoop

def prog : Walk.Prog :=
  .bind 1 [0] (.whl 20 2 3 4 5 1 (.ite 6 7 8 14 (.act 9 .fin) (.act 10 .fin) .fin) (.act 11 (.act 12 (.act 13 .fin))))

/-- The statement in the first arm and the last one. -/
def uses (l : Loc) : Bool := l == ⟨6, 0⟩ || l == ⟨8, 3⟩

/-- The `let` and the assignment. -/
def sets (l : Loc) : Bool := l == ⟨0, 0⟩ || l == ⟨8, 2⟩

/-- `x` is of use through the whole loop, also in the arm that does not use it and at the end of the body; it is lost
where the loop is left, comes back with the assignment and is lost with the last use. -/
example : (toldAll uses sets prog 99).map (fun e => (e.1.2.2, e.2)) =
    [(1, false, true), (2, true, true), (4, true, false), (3, true, true), (6, true, true), (8, true, true),
      (7, true, true), (9, true, true), (10, true, true), (5, false, false), (20, false, false), (11, false, false),
      (12, false, true), (13, true, false), (99, false, false)] := by decide

/-- The ways come together after the `if`, and the body of the loop leads back to its start. -/
example : prog.merges 0 0 = [(⟨7, 0⟩, ⟨0, 1⟩), (⟨6, 1⟩, ⟨7, 0⟩), (⟨5, 1⟩, ⟨7, 0⟩)] := by decide

theorem inside_of {l : Loc} (h : l ∈ locsOf prog.body) : Inside prog.body l := mem_locsOf.1 h

/-- Is it a jump? -/
def jumps (l : Loc) : Bool :=
  match prog.body[l.block]? with
  | none => false
  | some d => l.idx == d.stmts && match d.term with
    | .goto _ => true
    | .falseUnwind _ => true
    | _ => false

/-- C108 and C109 speak of this program. -/
example (c : Ctxt) (x : Place) : ∃ (i : Facts.Input) (used defined : Nat → Nat → Prop) (data : Loc → Place → Data),
    Tracked { c with data := data } prog.body i used defined x 0 ∧ Rests prog i 0 ∧ Flow prog.body i ∧
    Mentions prog.body used defined (i.varOf 0) uses sets ∧ Silent prog used defined (i.varOf 0) := by
  obtain ⟨i, used, defined, data, h1, h0, h2, h3, _⟩ := C109_possible prog uses sets true true c x
  refine ⟨i, used, defined, data, h1, h0, h2, h3, ?_⟩
  have quiet : ∀ l, l ∈ locsOf prog.body → uses l = false ∧ sets l = false →
      ¬ used (i.varOf 0) (point prog.body l + 1) ∧ ¬ defined (i.varOf 0) (point prog.body l + 1) := by
    intro l hl h
    obtain ⟨a1, a2⟩ := h3 l (inside_of hl)
    rw [a1, a2, h.1, h.2]
    exact ⟨Bool.false_ne_true, Bool.false_ne_true⟩
  have hj : ∀ l ∈ locsOf prog.body, jumps l = true → uses l = false ∧ sets l = false := by decide
  have hm : ∀ m ∈ prog.merges 0 0, m.1 ∈ locsOf prog.body ∧ uses m.1 = false ∧ sets m.1 = false := by decide
  constructor
  · intro l d hd hi ht
    have hl : l ∈ locsOf prog.body := mem_locsOf.2 ⟨d, hd, Nat.le_of_eq hi⟩
    refine quiet l hl (hj l hl ?_)
    unfold jumps
    rw [hd]
    rcases ht with ⟨t, ht⟩ | ⟨t, ht⟩ <;> simp [hi, ht]
  · intro m h
    exact quiet m.1 (hm m h).1 (hm m h).2

end SourceLoop

end Verif.Pipeline
