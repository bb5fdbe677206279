import Verif.Pipeline.Around
import Verif.HirSteps.ProgramProps
import Verif.Segments.Filing
/-!
# C101: what the page shows of a function with conditionals
-/
namespace Verif.Pipeline

open Verif.Cfg Verif.Segments Verif.Steps Verif.Permissions Verif.HirSteps

/-! ## Any function -/

/-- The step changes the permissions of the place. -/
def Changes (c : Ctxt) (p : Place) (s : Seg) : Prop :=
  (c.data s.from p).permissions ≠ (c.data s.to p).permissions

/-- **C101 (a step is shown).** For any control flow: a step that changes a visible place is shown with exactly the
permissions before and after, if no other step ends and no branch joins where it ends, it is the only one on its
line to change the place, and no step is due in the `let`s that declare the variable. -/
theorem C101_shown_partial {b : Body} {fuel : Nat} {ord : List (Loc × Nat) → List (Loc × Nat)} {value : Expr} {f : Frozen}
    {locals : List (Nat × List Nat)} (hf : compute (.ofBody b fuel ord) value = .steps f locals)
    {c : Ctxt} {order : Tables → Tables} (ho : ∀ m, (order m).Perm m) {src : List Char} {err : Option Nat}
    {visible : Place → Bool} {ds : List Display}
    (hd : finalizeBody c f locals order src err visible .changes = some ds)
    {p : Place} (hp : p ∈ c.places) (hv : visible p = true)
    (hx : ∀ e ∈ letsExpr b.mapper.isSwitch b.locationSuccessor value, p.local_ ∈ e.1 → e.2 = [])
    {k : Nat} {s : Seg} (hs : f.segs[k]? = some s) (hne : Changes c p s)
    (hend : ∀ (j : Nat) (s' : Seg), f.segs[j]? = some s' → s'.from ≠ s'.to → s'.to = s.to → j = k)
    (hjoin : ∀ x ∈ f.branches, x.reachTo ≠ s.to)
    {line : Nat} (hline : OnLine src err (c.endOf s.span) line)
    (hu : ∀ (j : Nat) (s' : Seg), f.segs[j]? = some s' → Changes c p s' → lineOf src (c.endOf s'.span) = line → j = k)
    (hb : lineOf src c.brace = line → bottomData.permissions = (c.data c.start p).permissions) :
    ∃ d, Shown src ds line p d ∧ Says d (c.data s.from p).permissions (c.data s.to p).permissions := by
  obtain ⟨v, h1, _, _, h4, _⟩ := compute_steps hf
  obtain ⟨g, hmv⟩ := all_body (tracked_closed (E := .ofBody b fuel ord) (mapper_proper b)) value V.make v h1 [] .make
  have htree := C101_in_tree (mapper_proper b) hmv.run h4
  obtain ⟨hcov, hatt⟩ := C97_not_hidden (c := c) hf hp hx
  have hft : s.from ≠ s.to := by
    intro h
    exact hne (by rw [h])
  refine C97_shown_partial ho hd (t := .seg k) (l := s.to) (.inr ⟨(htree _ _).2 (.inl ⟨k, s, hs, hft, rfl, rfl⟩), ?_⟩)
    (hcov k s hs) hline hv hne ?_
  · intro t ht
    rcases (htree _ _).1 ht with ⟨j, s', e1, e2, e3, e4⟩ | ⟨j, x, e1, e2, _⟩
    · rw [e4, hend j s' e1 e2 e3.symm]
    · exact absurd e2.symm (hjoin x (List.mem_of_getElem? e1))
  · intro t a b' hi _ hc hl hn
    cases hc with
    | entry _ => exact absurd (hb hl) hn
    | seg _ hs' _ => rw [hu _ _ hs' hn hl]
    | attached a1 a2 a3 a4 a5 => exact (hatt _ _ _ _ (.attached a1 a2 a3 a4 a5)).elim

/-! ## The story along the steps -/

/-- Steps that follow each other, from `o` to `l`. -/
inductive Along (f : Frozen) (o : Loc) : List Seg → Loc → Prop
  | nil : Along f o [] o
  | snoc {ss l g} : Along f o ss l → g ∈ f.segs → g.from = l → Along f o (ss ++ [g]) g.to

/-- If every change has its row, the rows along a sequence of steps tell the permissions at its end. -/
theorem along_told {c : Ctxt} {f : Frozen} {src : List Char} {ds : List Display} {p : Place}
    (hsh : ∀ g ∈ f.segs, Changes c p g → ∃ d, Shown src ds (lineOf src (c.endOf g.span)) p d ∧
      Says d (c.data g.from p).permissions (c.data g.to p).permissions)
    {o : Loc} {ss : List Seg} {l : Loc} (h : Along f o ss l) :
    (∃ pre g post d, ss = pre ++ g :: post ∧ Shown src ds (lineOf src (c.endOf g.span)) p d ∧
      Says d (c.data g.from p).permissions (c.data l p).permissions ∧ ∀ x ∈ post, ¬ Changes c p x) ∨
    ((∀ x ∈ ss, ¬ Changes c p x) ∧ (c.data l p).permissions = (c.data o p).permissions) := by
  induction h with
  | nil => exact .inr ⟨by simp, rfl⟩
  | @snoc ss l g h hg hl ih =>
    by_cases hne : Changes c p g
    · obtain ⟨d, h1, h2⟩ := hsh g hg hne
      exact .inl ⟨ss, g, [], d, rfl, h1, h2, by simp⟩
    · have he : (c.data g.to p).permissions = (c.data l p).permissions := by
        rw [← hl]
        exact (Classical.not_not.1 hne).symm
      rcases ih with ⟨pre, x, post, d, rfl, h1, h2, h3⟩ | ⟨h1, h2⟩
      · refine .inl ⟨pre, x, post ++ [g], d, by simp, h1, by rw [he]; exact h2, ?_⟩
        intro y hy
        rcases List.mem_append.1 hy with hy | hy
        · exact h3 y hy
        · rw [List.mem_singleton] at hy
          exact hy ▸ hne
      · refine .inr ⟨?_, he.trans h2⟩
        intro y hy
        rcases List.mem_append.1 hy with hy | hy
        · exact h1 y hy
        · rw [List.mem_singleton] at hy
          exact hy ▸ hne

end Verif.Pipeline

namespace Verif.HirSteps.Prog

open Verif.Cfg Verif.Segments

/-! ## The ends of the steps of a program -/

theorem finAt_block : ∀ (p : Prog) (k n : Nat), (p.finAt k n).block + 1 = k + p.size
  | fin, _, _ => rfl
  | act _ r, k, n => finAt_block r k (n + 1)
  | call _ r, k, n => by have := finAt_block r (k + 1) 0; simp only [finAt, size]; omega
  | ask _ _ _ t e r, k, n => by
    have := finAt_block r (k + 1 + e.size + t.size) 0; simp only [finAt, size]; omega
  | only _ _ _ t r, k, n => by
    have := finAt_block r (k + 1 + 1 + t.size) 0; simp only [finAt, size]; omega

theorem finAt_idx : ∀ (p : Prog) (k n : Nat), (p.finAt k n).block = k → n ≤ (p.finAt k n).idx
  | fin, _, _, _ => Nat.le_refl _
  | act _ r, k, n, h => by have := finAt_idx r k (n + 1) h; simp only [finAt]; omega
  | call _ r, k, n, h => by have := finAt_block r (k + 1) 0; have := r.size_pos; simp only [finAt] at h; omega
  | ask _ _ _ t e r, k, n, h => by
    have := finAt_block r (k + 1 + e.size + t.size) 0; have := r.size_pos; simp only [finAt] at h; omega
  | only _ _ _ t r, k, n, h => by
    have := finAt_block r (k + 1 + 1 + t.size) 0; have := r.size_pos; simp only [finAt] at h; omega

/-- How often a location is the end of a step or of a branch. -/
def times (p : Prog) (k n : Nat) (l : Loc) : Nat :=
  ((p.expected k n).map (·.2.1)).count l + ((p.joins k n).map (·.2)).count l

theorem count_one (l : Loc) (a i : Nat) (r : List Loc) :
    ((⟨a, i⟩ :: r).count l : Nat) = r.count l + if a = l.block ∧ i = l.idx then 1 else 0 := by
  rw [List.count_cons]
  congr 1
  obtain ⟨x, y⟩ := l
  simp [Loc.mk.injEq]

theorem times_spec : ∀ (p : Prog) (k n : Nat) (l : Loc), p.times k n l ≤ 1 ∧ (p.times k n l ≠ 0 →
    k ≤ l.block ∧ l.block < k + p.size ∧ (l.block = k → n < l.idx) ∧
      (l.block + 1 = k + p.size → l.idx ≤ (p.finAt k n).idx))
  | fin, k, n, l => by simp [times, expected, joins]
  | act sp r, k, n, l => by
    obtain ⟨h1, h2⟩ := times_spec r k (n + 1) l
    have h3 := finAt_block r k (n + 1)
    have h4 := finAt_idx r k (n + 1)
    have h5 := r.size_pos
    simp only [times, expected, joins, List.map_cons, count_one, size, finAt] at h1 h2 ⊢
    split <;> omega
  | call sp r, k, n, l => by
    obtain ⟨h1, h2⟩ := times_spec r (k + 1) 0 l
    have h3 := finAt_block r (k + 1) 0
    have h5 := r.size_pos
    simp only [times, expected, joins, List.map_cons, count_one, size, finAt] at h1 h2 ⊢
    split <;> omega
  | ask sp lt le t e r, k, n, l => by
    obtain ⟨a1, a2⟩ := times_spec t (k + 1 + e.size) 0 l
    obtain ⟨b1, b2⟩ := times_spec e (k + 1) 0 l
    obtain ⟨c1, c2⟩ := times_spec r (k + 1 + e.size + t.size) 0 l
    have h3 := finAt_block r (k + 1 + e.size + t.size) 0
    have h5 := r.size_pos
    have h6 := t.size_pos
    have h7 := e.size_pos
    simp only [times, expected, joins, List.map_cons, List.map_append, List.count_append, count_one, size, finAt]
      at a1 a2 b1 b2 c1 c2 ⊢
    repeat' split
    all_goals omega
  | only sp lt hi t r, k, n, l => by
    obtain ⟨a1, a2⟩ := times_spec t (k + 1 + 1) 0 l
    obtain ⟨c1, c2⟩ := times_spec r (k + 1 + 1 + t.size) 0 l
    have h3 := finAt_block r (k + 1 + 1 + t.size) 0
    have h5 := r.size_pos
    have h6 := t.size_pos
    simp only [times, expected, joins, List.map_cons, List.map_append, List.count_append, count_one, size, finAt]
      at a1 a2 c1 c2 ⊢
    repeat' split
    all_goals omega

end Verif.HirSteps.Prog

namespace Verif.HirSteps.Prog

open Verif.Cfg Verif.Segments

theorem nodup_of_count {α : Type} [DecidableEq α] : ∀ {l : List α}, (∀ x, l.count x ≤ 1) → l.Nodup
  | [], _ => List.nodup_nil
  | a :: r, h => by
    rw [List.nodup_cons]
    constructor
    · intro ha
      have h1 := h a
      have h2 := List.count_pos_iff.2 ha
      rw [List.count_cons_self] at h1
      omega
    · refine nodup_of_count fun x => ?_
      have := h x
      rw [List.count_cons] at this
      omega

/-- The steps and the branches of a program all end in different places, none of them at the start. -/
theorem ends_distinct (p : Prog) (sp : Nat) :
    (((p.expected 0 0 ++ [(p.finAt 0 0, (⟨(p.finAt 0 0).block, (p.finAt 0 0).idx + 1⟩ : Loc), sp)]).map (·.2.1)) ++
      (p.joins 0 0).map (·.2)).Nodup ∧
    startLoc ∉ ((p.expected 0 0 ++ [(p.finAt 0 0, (⟨(p.finAt 0 0).block, (p.finAt 0 0).idx + 1⟩ : Loc), sp)]).map (·.2.1)) ++
      (p.joins 0 0).map (·.2) := by
  have key : ∀ l, ((((p.expected 0 0 ++
      [(p.finAt 0 0, (⟨(p.finAt 0 0).block, (p.finAt 0 0).idx + 1⟩ : Loc), sp)]).map (·.2.1)) ++
      (p.joins 0 0).map (·.2)).count l : Nat) ≤ 1 ∧ (l = startLoc → (((p.expected 0 0 ++
      [(p.finAt 0 0, (⟨(p.finAt 0 0).block, (p.finAt 0 0).idx + 1⟩ : Loc), sp)]).map (·.2.1)) ++
      (p.joins 0 0).map (·.2)).count l = 0) := by
    intro l
    obtain ⟨h1, h2⟩ := times_spec p 0 0 l
    have h3 := finAt_block p 0 0
    simp only [List.map_append, List.map_cons, List.map_nil, List.count_append, count_one, List.count_nil]
    simp only [times] at h1 h2
    constructor
    · split <;> omega
    · rintro rfl
      have hz : ((p.expected 0 0).map (·.2.1)).count startLoc + ((p.joins 0 0).map (·.2)).count startLoc = 0 := by
        refine Classical.byContradiction fun hne => ?_
        exact absurd ((h2 hne).2.2.1 rfl) (by decide)
      rw [if_neg (by simp [startLoc])]
      omega
  refine ⟨nodup_of_count fun x => (key x).1, fun h => ?_⟩
  have := (key startLoc).2 rfl
  have := List.count_pos_iff.2 h
  omega

/-- A program has no `let`. -/
theorem no_lets (sw : Nat → Bool) (next : Loc → Option Loc) : ∀ (p : Prog) (k n : Nat),
    letsStmts sw next (p.stmts k n) = []
  | fin, _, _ => by rw [stmts, letsStmts]
  | act sp r, k, n => by
    rw [stmts, letsStmts, letsStmt, letsExpr, letsParts, no_lets sw next r]; rfl
  | call sp r, k, n => by
    rw [stmts, letsStmts, letsStmt, letsExpr, letsParts, no_lets sw next r]; rfl
  | ask sp lt le t e r, k, n => by
    rw [stmts, letsStmts, letsStmt, no_lets sw next r]
    simp only [letsExpr, letsOpt, letsParts, letsPart, letsBlock, no_lets sw next t, no_lets sw next e, List.append_nil]
  | only sp lt hi t r, k, n => by
    rw [stmts, letsStmts, letsStmt, no_lets sw next r]
    simp only [letsExpr, letsOpt, letsParts, letsPart, letsBlock, no_lets sw next t, List.append_nil]

theorem no_lets_source (sw : Nat → Bool) (next : Loc → Option Loc) (p : Prog) (sp : Nat) :
    letsExpr sw next (p.source sp) = [] := by
  simp only [source, letsExpr, letsParts, letsPart, letsBlock, letsOpt, no_lets, List.append_nil]

/-- Every branch of a program has two targets. -/
theorem joins_two {b : Body} (hb : ∀ d ∈ b, Plain d) : ∀ (p : Prog) (k n : Nat) (last : Term),
    Slice b k (p.code k n last) → ∀ x ∈ p.joins k n, (b.succ x.1.block).length = 2
  | fin, _, _, _, _, x, hx => by simp [joins] at hx
  | act _ r, k, n, last, hs, x, hx => joins_two hb r k (n + 1) last hs x hx
  | call _ r, k, n, last, hs, x, hx => joins_two hb r (k + 1) 0 last (Slice.tail hs).2 x hx
  | ask _ _ _ t e r, k, n, last, hs, x, hx => by
    obtain ⟨h1, h2, h3, h4⟩ := slice_ask hs
    simp only [joins, List.mem_cons, List.mem_append] at hx
    rcases hx with rfl | (hx | hx) | hx
    · dsimp only
      rw [succ_all hb h1]
      · rfl
      · obtain ⟨d, hd, _⟩ := code_head e (k + 1) 0 (.goto (k + 1 + e.size + t.size))
        obtain ⟨d', hd', _⟩ := code_head t (k + 1 + e.size) 0 (.goto (k + 1 + e.size + t.size))
        have ha := (List.getElem?_eq_some_iff.1 (h2 0 d hd)).1
        have hc := (List.getElem?_eq_some_iff.1 (h3 0 d' hd')).1
        simp only [Term.targets, List.mem_cons, List.not_mem_nil, or_false]
        rintro y (rfl | rfl)
        · exact ha
        · exact hc
    · exact joins_two hb t _ _ _ h3 x hx
    · exact joins_two hb e _ _ _ h2 x hx
    · exact joins_two hb r _ _ _ h4 x hx
  | only _ _ _ t r, k, n, last, hs, x, hx => by
    obtain ⟨h1, h2, h3, h4⟩ := slice_only hs
    simp only [joins, List.mem_cons, List.mem_append] at hx
    rcases hx with rfl | hx | hx
    · dsimp only
      rw [succ_all hb h1]
      · rfl
      · obtain ⟨d', hd', _⟩ := code_head t (k + 1 + 1) 0 (.goto (k + 1 + 1 + t.size))
        have ha := (List.getElem?_eq_some_iff.1 h2).1
        have hc := (List.getElem?_eq_some_iff.1 (h3 0 d' hd')).1
        simp only [Term.targets, List.mem_cons, List.not_mem_nil, or_false]
        rintro y (rfl | rfl)
        · exact ha
        · exact hc
    · exact joins_two hb t _ _ _ h3 x hx
    · exact joins_two hb r _ _ _ h4 x hx

/-- Every step of a program begins at its start, where another step ends, or at a join. -/
theorem expected_from : ∀ (p : Prog) (k n : Nat) (w : List Step) (js : List Loc) (ok : Loc → Prop),
    (∀ x ∈ p.expected k n, x ∈ w) → (∀ x ∈ p.joins k n, x.2 ∈ js) → (∀ l ∈ js, ok l) →
    (∀ x ∈ w, ok x.1 → ok x.2.1) → ok ⟨k, n⟩ → (∀ x ∈ p.expected k n, ok x.1) ∧ ok (p.finAt k n)
  | fin, _, _, _, _, _, _, _, _, _, h => ⟨by simp [expected], h⟩
  | act sp r, k, n, w, js, ok, hw, hj, h1, h2, h => by
    have hn : ok ⟨k, n + 1⟩ := h2 _ (hw _ List.mem_cons_self) h
    obtain ⟨a, b⟩ := expected_from r k (n + 1) w js ok (fun x hx => hw x (List.mem_cons_of_mem _ hx)) hj h1 h2 hn
    refine ⟨fun x hx => ?_, b⟩
    rcases List.mem_cons.1 hx with rfl | hx
    · exact h
    · exact a x hx
  | call sp r, k, n, w, js, ok, hw, hj, h1, h2, h => by
    have hn : ok ⟨k + 1, 0⟩ := h2 _ (hw _ List.mem_cons_self) h
    obtain ⟨a, b⟩ := expected_from r (k + 1) 0 w js ok (fun x hx => hw x (List.mem_cons_of_mem _ hx)) hj h1 h2 hn
    refine ⟨fun x hx => ?_, b⟩
    rcases List.mem_cons.1 hx with rfl | hx
    · exact h
    · exact a x hx
  | ask sp lt le t e r, k, n, w, js, ok, hw, hj, h1, h2, h => by
    simp only [expected, joins, List.mem_cons, List.mem_append] at hw hj ⊢
    have hn : ok ⟨k, n + 1⟩ := h2 _ (hw _ (.inl rfl)) h
    have he : ok ⟨k + 1, 0⟩ := h2 _ (hw _ (.inr (.inl rfl))) hn
    have ht : ok ⟨k + 1 + e.size, 0⟩ := h2 _ (hw _ (.inr (.inr (.inl rfl)))) hn
    have hr : ok ⟨k + 1 + e.size + t.size, 0⟩ := h1 _ (hj _ (.inl rfl))
    obtain ⟨a1, _⟩ := expected_from t _ _ w js ok (fun x hx => hw x (.inr (.inr (.inr (.inl (.inl hx))))))
      (fun x hx => hj x (.inr (.inl (.inl hx)))) h1 h2 ht
    obtain ⟨b1, _⟩ := expected_from e _ _ w js ok (fun x hx => hw x (.inr (.inr (.inr (.inl (.inr hx))))))
      (fun x hx => hj x (.inr (.inl (.inr hx)))) h1 h2 he
    obtain ⟨c1, c2⟩ := expected_from r _ _ w js ok (fun x hx => hw x (.inr (.inr (.inr (.inr hx)))))
      (fun x hx => hj x (.inr (.inr hx))) h1 h2 hr
    refine ⟨?_, c2⟩
    rintro x (rfl | rfl | rfl | (hx | hx) | hx)
    · exact h
    · exact hn
    · exact hn
    · exact a1 x hx
    · exact b1 x hx
    · exact c1 x hx
  | only sp lt hi t r, k, n, w, js, ok, hw, hj, h1, h2, h => by
    simp only [expected, joins, List.mem_cons, List.mem_append] at hw hj ⊢
    have hn : ok ⟨k, n + 1⟩ := h2 _ (hw _ (.inl rfl)) h
    have ht : ok ⟨k + 1 + 1, 0⟩ := h2 _ (hw _ (.inr (.inr (.inl rfl)))) hn
    have hr : ok ⟨k + 1 + 1 + t.size, 0⟩ := h1 _ (hj _ (.inl rfl))
    obtain ⟨a1, _⟩ := expected_from t _ _ w js ok (fun x hx => hw x (.inr (.inr (.inr (.inl hx)))))
      (fun x hx => hj x (.inr (.inl hx))) h1 h2 ht
    obtain ⟨c1, c2⟩ := expected_from r _ _ w js ok (fun x hx => hw x (.inr (.inr (.inr (.inr hx)))))
      (fun x hx => hj x (.inr (.inr hx))) h1 h2 hr
    refine ⟨?_, c2⟩
    rintro x (rfl | rfl | rfl | hx | hx)
    · exact h
    · exact hn
    · exact hn
    · exact a1 x hx
    · exact c1 x hx

end Verif.HirSteps.Prog

namespace Verif.Pipeline

open Verif.Cfg Verif.Segments Verif.Steps Verif.Permissions Verif.HirSteps

/-! ## Programs -/

/-- What is known of the steps of a program. -/
structure Known (f : Frozen) : Prop where
  nodup : (f.segs.map (·.to) ++ f.branches.map (·.reachTo)).Nodup
  start : startLoc ∉ f.segs.map (·.to) ++ f.branches.map (·.reachTo)
  splits : ∀ b ∈ f.branches, b.splits ≠ []

theorem program_known (p : Prog) (sp : Nat) {fuel : Nat} {ord : List (Loc × Nat) → List (Loc × Nat)} {f : Frozen}
    {locals : List (Nat × List Nat)} (h : compute (.ofBody p.body fuel ord) (p.source sp) = .steps f locals)
    (hs : f.segs.map (fun g => (g.from, g.to, g.span)) =
        p.expected 0 0 ++ [(p.finAt 0 0, ⟨(p.finAt 0 0).block, (p.finAt 0 0).idx + 1⟩, sp)])
    (hj : f.branches.map (fun x => (x.reachFrom, x.reachTo)) = p.joins 0 0) : Known f := by
  obtain ⟨h1, h2⟩ := Prog.ends_distinct p sp
  rw [← hs, ← hj, List.map_map, List.map_map] at h1 h2
  refine ⟨h1, h2, ?_⟩
  intro x hx he
  obtain ⟨v, e1, _, _, e4, _⟩ := compute_steps h
  obtain ⟨g, hmv⟩ := all_body (tracked_closed (E := .ofBody p.body fuel ord) (mapper_proper p.body)) (p.source sp)
    V.make v e1 [] .make
  have hl := C101_splits (mapper_proper p.body) hmv.run e4 x hx
  have hm : (x.reachFrom, x.reachTo) ∈ p.joins 0 0 := by
    rw [← hj]
    exact List.mem_map.2 ⟨x, hx, rfl⟩
  have := Prog.joins_two p.body_plain p 0 0 .ret p.body_slice _ hm
  rw [he] at hl
  have hl' : 0 = (p.body.succ x.reachFrom.block).length := hl
  dsimp only at this
  omega

end Verif.Pipeline
