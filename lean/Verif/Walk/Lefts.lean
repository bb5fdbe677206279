import Verif.Walk.Ends
import Verif.HirSteps.Around
/-!
# C103: how branches are left, and where steps begin
-/
namespace Verif.Walk

open Verif.Cfg Verif.Segments Verif.HirSteps

/-- One of the steps of the branch goes straight to its end, as that behind a loop. -/
def Fork.Straight (x : Fork) : Prop := ∃ s ∈ x.2.2, s.1 ≠ s.2.1 ∧ s.2.1 = x.2.1

theorem joinEnds_pos {x : Fork} {bs : List Fork} (h : x ∈ bs) : joinEnds x.2.1 bs ≠ 0 :=
  Nat.ne_of_gt (List.countP_pos_iff.2 ⟨x, h, by simp⟩)

set_option maxHeartbeats 1000000 in
mutual
/-- Where a branch ends no step ends, but the one that goes straight there. -/
theorem Prog.lefts : ∀ (p : Prog) (k n : Nat), ∀ x ∈ p.joins k n, x.Straight ∨ stepEnds x.2.1 (p.expected k n) = 0
  | .fin, k, n, x, hx => by simp [Prog.joins] at hx
  | .act sp r, k, n, x, hx => by
    have h := Prog.ends r k (n + 1) x.2.1
    have h1 := joinEnds_pos (bs := r.joins k (n + 1)) hx
    refine (Prog.lefts r k (n + 1) x hx).imp_right fun h0 => ?_
    simp only [Prog.expected, stepEnds_cons, Prog.Spans] at *
    split <;> omega
  | .bind sp vs r, k, n, x, hx => by
    have h := Prog.ends r k (n + 1) x.2.1
    have h1 := joinEnds_pos (bs := r.joins k (n + 1)) hx
    refine (Prog.lefts r k (n + 1) x hx).imp_right fun h0 => ?_
    simp only [Prog.expected, stepEnds_cons, Prog.Spans] at *
    split <;> omega
  | .call sp r, k, n, x, hx => by
    have h := Prog.ends r (k + 1) 0 x.2.1
    have h1 := joinEnds_pos (bs := r.joins (k + 1) 0) hx
    refine (Prog.lefts r (k + 1) 0 x hx).imp_right fun h0 => ?_
    simp only [Prog.expected, stepEnds_cons, Prog.Spans] at *
    split <;> omega
  | .ite sp lt le hi t e r, k, n, x, hx => by
    have a := Prog.ends t (k + 1 + e.size) 0 x.2.1
    have b := Prog.ends e (k + 1) 0 x.2.1
    have c := Prog.ends r (k + 1 + e.size + t.size) 0 x.2.1
    have h6 := t.size_pos
    have h7 := e.size_pos
    simp only [Prog.joins, List.mem_cons, List.mem_append] at hx
    rcases hx with hx | hx | hx | hx
    · refine .inr ?_
      have e1 : x.2.1.block = k + 1 + e.size + t.size := by rw [hx]
      have e2 : x.2.1.idx = 0 := by rw [hx]
      simp only [Prog.expected, stepEnds_cons, stepEnds_append, Prog.Spans] at *
      repeat' split
      all_goals omega
    all_goals
      have h1 := joinEnds_pos hx
      refine (Prog.lefts _ _ _ x hx).imp_right fun h0 => ?_
      simp only [Prog.expected, stepEnds_cons, stepEnds_append, Prog.Spans] at *
      repeat' split
      all_goals omega
  | .only sp lt hi t r, k, n, x, hx => by
    have a := Prog.ends t (k + 1 + 1) 0 x.2.1
    have c := Prog.ends r (k + 1 + 1 + t.size) 0 x.2.1
    have h6 := t.size_pos
    simp only [Prog.joins, List.mem_cons, List.mem_append] at hx
    rcases hx with hx | hx | hx
    · refine .inr ?_
      have e1 : x.2.1.block = k + 1 + 1 + t.size := by rw [hx]
      have e2 : x.2.1.idx = 0 := by rw [hx]
      simp only [Prog.expected, stepEnds_cons, stepEnds_append, Prog.Spans] at *
      repeat' split
      all_goals omega
    all_goals
      have h1 := joinEnds_pos hx
      refine (Prog.lefts _ _ _ x hx).imp_right fun h0 => ?_
      simp only [Prog.expected, stepEnds_cons, stepEnds_append, Prog.Spans] at *
      repeat' split
      all_goals omega
  | .mtch sp ds i f as r, k, n, x, hx => by
    have a := Prog.ends f (k + 1 + 1) i.nb x.2.1
    have b := Arms.ends as (k + 1 + 1 + f.size) k (n + 1) x.2.1 (by omega)
    have c := Prog.ends r (k + 1 + 1 + f.size + as.size) 0 x.2.1
    have h6 := f.size_pos
    have h7 := as.size_pos
    simp only [Prog.joins, List.mem_cons, List.mem_append] at hx
    rcases hx with hx | hx | hx | hx
    · refine .inr ?_
      have e1 : x.2.1.block = k + 1 + 1 + f.size + as.size := by rw [hx]
      have e2 : x.2.1.idx = 0 := by rw [hx]
      simp only [Prog.expected, List.map_cons, List.cons_append, stepEnds_cons, stepEnds_append, Prog.Spans,
        and_self, not_true_eq_false, false_and, ↓reduceIte, Nat.add_zero] at *
      repeat' split
      all_goals omega
    · have h1 := joinEnds_pos hx
      refine (Prog.lefts _ _ _ x hx).imp_right fun h0 => ?_
      simp only [Prog.expected, List.map_cons, List.cons_append, stepEnds_cons, stepEnds_append, Prog.Spans,
        and_self, not_true_eq_false, false_and, ↓reduceIte, Nat.add_zero] at *
      repeat' split
      all_goals omega
    · have h1 := joinEnds_pos hx
      refine (Arms.lefts as (k + 1 + 1 + f.size) k (n + 1) (by omega) x hx).imp_right fun h0 => ?_
      simp only [Prog.expected, List.map_cons, List.cons_append, stepEnds_cons, stepEnds_append, Prog.Spans,
        and_self, not_true_eq_false, false_and, ↓reduceIte, Nat.add_zero] at *
      repeat' split
      all_goals omega
    · have h1 := joinEnds_pos hx
      refine (Prog.lefts _ _ _ x hx).imp_right fun h0 => ?_
      simp only [Prog.expected, List.map_cons, List.cons_append, stepEnds_cons, stepEnds_append, Prog.Spans,
        and_self, not_true_eq_false, false_and, ↓reduceIte, Nat.add_zero] at *
      repeat' split
      all_goals omega
  | .whl sp sc lt hi sb c t r, k, n, x, hx => by
    have a := Prog.ends t (k + 3 + c) 0 x.2.1
    have b := Prog.ends r (k + 3 + c + t.size) 1 x.2.1
    have h6 := t.size_pos
    simp only [Prog.joins, List.mem_cons, List.mem_append] at hx
    rcases hx with rfl | hx | hx
    · refine .inl ⟨_, List.mem_cons_self, ?_, rfl⟩
      simp only [ne_eq, Loc.mk.injEq]
      omega
    all_goals
      have h1 := joinEnds_pos hx
      refine (Prog.lefts _ _ _ x hx).imp_right fun h0 => ?_
      simp only [Prog.expected, stepEnds_cons, stepEnds_append, Prog.Spans,
        and_self, not_true_eq_false, false_and, ↓reduceIte, Nat.add_zero] at *
      repeat' split
      all_goals omega
  | .frl sp sa sc hi sn lb li nb t r, k, n, x, hx => by
    have a := Prog.ends t (k + 6) nb x.2.1
    have b := Prog.ends r (k + 6 + t.size) 1 x.2.1
    have h6 := t.size_pos
    simp only [Prog.joins, List.mem_cons, List.mem_append] at hx
    rcases hx with rfl | hx | hx
    · refine .inl ⟨_, List.mem_cons_self, ?_, rfl⟩
      simp only [ne_eq, Loc.mk.injEq]
      omega
    all_goals
      have h1 := joinEnds_pos hx
      refine (Prog.lefts _ _ _ x hx).imp_right fun h0 => ?_
      simp only [Prog.expected, stepEnds_cons, stepEnds_append, Prog.Spans,
        and_self, not_true_eq_false, false_and, ↓reduceIte, Nat.add_zero] at *
      repeat' split
      all_goals omega
theorem Arms.lefts : ∀ (as : Arms) (k a n : Nat), a < k → ∀ x ∈ (as.joins k).flatten, x.Straight ∨
    stepEnds x.2.1 ((as.entries k).map (fun e => (⟨a, n⟩, e.1, e.2))) + stepEnds x.2.1 (as.expected k).flatten = 0
  | .last i f, k, a, n, ha, x, hx => by
    have h := Prog.ends f k i.nb x.2.1
    simp only [Arms.joins, List.flatten_cons, List.flatten_nil, List.append_nil] at hx
    have h1 := joinEnds_pos hx
    refine (Prog.lefts _ _ _ x hx).imp_right fun h0 => ?_
    simp only [Arms.entries, Arms.expected, List.map_cons, List.map_nil, List.flatten_cons, List.flatten_nil,
      List.append_nil, stepEnds_cons, stepEnds_nil, Prog.Spans,
      and_self, not_true_eq_false, false_and, ↓reduceIte, Nat.add_zero] at *
    repeat' split
    all_goals omega
  | .cons i f as, k, a, n, ha, x, hx => by
    have h := Prog.ends f (k + 1) i.nb x.2.1
    have h' := Arms.ends as (k + 1 + f.size) a n x.2.1 (by omega)
    have h6 := f.size_pos
    simp only [Arms.joins, List.flatten_cons, List.mem_append] at hx
    rcases hx with hx | hx
    · have h1 := joinEnds_pos hx
      refine (Prog.lefts _ _ _ x hx).imp_right fun h0 => ?_
      simp only [Arms.entries, Arms.expected, List.map_cons, List.flatten_cons, List.cons_append, stepEnds_cons,
        stepEnds_append, Prog.Spans, and_self, not_true_eq_false, false_and, ↓reduceIte, Nat.add_zero] at *
      repeat' split
      all_goals omega
    · have h1 := joinEnds_pos hx
      refine (Arms.lefts as (k + 1 + f.size) a n (by omega) x hx).imp_right fun h0 => ?_
      simp only [Arms.entries, Arms.expected, List.map_cons, List.flatten_cons, List.cons_append, stepEnds_cons,
        stepEnds_append, Prog.Spans, and_self, not_true_eq_false, false_and, ↓reduceIte, Nat.add_zero] at *
      repeat' split
      all_goals omega
end

mutual
/-- No step is due in a `let`. -/
theorem Prog.letless (sw : Nat → Bool) (next : Loc → Option Loc) : ∀ (p : Prog) (k n : Nat),
    ∀ e ∈ letsStmts sw next (p.stmts k n), e.2 = []
  | .fin, _, _ => by rw [Prog.stmts, letsStmts]; simp
  | .act sp r, k, n => by
    rw [Prog.stmts, letsStmts, letsStmt, letsExpr, letsParts]; exact Prog.letless sw next r k (n + 1)
  | .bind sp vs r, k, n => by
    have := Prog.letless sw next r k (n + 1)
    rw [Prog.stmts, letsStmts]
    simpa [letsStmt, letsOpt, letsOptBlock, letsExpr, letsParts, dueOpt, dueOptBlock, dueExpr, dueParts] using this
  | .call sp r, k, n => by
    rw [Prog.stmts, letsStmts, letsStmt, letsExpr, letsParts]; exact Prog.letless sw next r (k + 1) 0
  | .ite sp lt le hi t e r, k, n => by
    have h1 := Prog.letless sw next t (k + 1 + e.size) 0
    have h2 := Prog.letless sw next e (k + 1) 0
    have h3 := Prog.letless sw next r (k + 1 + e.size + t.size) 0
    simp only [Prog.stmts, letsStmts, letsStmt, letsExpr, letsOpt, letsParts, letsPart, letsBlock, braces, List.append_nil,
      List.nil_append, List.mem_append]
    rintro x ((hx | hx) | hx)
    · exact h1 x hx
    · exact h2 x hx
    · exact h3 x hx
  | .only sp lt hi t r, k, n => by
    have h1 := Prog.letless sw next t (k + 1 + 1) 0
    have h3 := Prog.letless sw next r (k + 1 + 1 + t.size) 0
    simp only [Prog.stmts, letsStmts, letsStmt, letsExpr, letsOpt, letsParts, letsPart, letsBlock, braces, List.append_nil,
      List.nil_append, List.mem_append]
    rintro x (hx | hx)
    · exact h1 x hx
    · exact h3 x hx
  | .mtch sp ds i f as r, k, n => by
    have h1 := Prog.letless sw next f (k + 1 + 1) i.nb
    have h2 := Arms.letless sw next as (k + 1 + 1 + f.size)
    have h3 := Prog.letless sw next r (k + 1 + 1 + f.size + as.size) 0
    simp only [Prog.stmts, letsStmts, letsStmt, letsExpr, letsOpt, letsParts, letsPart, letsBlock, letsArms, letsArm,
      armOf, braces, List.append_nil, List.nil_append, List.mem_append]
    rintro x ((hx | hx) | hx)
    · exact h1 x hx
    · exact h2 x hx
    · exact h3 x hx
  | .whl sp sc lt hi sb c t r, k, n => by
    have h1 := Prog.letless sw next t (k + 3 + c) 0
    have h3 := Prog.letless sw next r (k + 3 + c + t.size) 1
    simp only [Prog.stmts, letsStmts, letsStmt, letsExpr, letsOpt, letsParts, letsPart, letsBlock, letsArms, letsArm,
      braces, List.append_nil, List.nil_append, List.mem_append]
    rintro x (hx | hx)
    · exact h1 x hx
    · exact h3 x hx
  | .frl sp sa sc hi sn lb li nb t r, k, n => by
    have h1 := Prog.letless sw next t (k + 6) nb
    have h3 := Prog.letless sw next r (k + 6 + t.size) 1
    simp only [Prog.stmts, letsStmts, letsStmt, letsExpr, letsOpt, letsParts, letsPart, letsBlock, letsArms, letsArm,
      braces, List.append_nil, List.nil_append, List.mem_append]
    rintro x (hx | hx)
    · exact h1 x hx
    · exact h3 x hx
theorem Arms.letless (sw : Nat → Bool) (next : Loc → Option Loc) : ∀ (as : Arms) (k : Nat),
    ∀ e ∈ letsArms sw next (as.arms k), e.2 = []
  | .last i f, k => by
    have h1 := Prog.letless sw next f k i.nb
    simp only [Arms.arms, letsArms, letsArm, armOf, letsExpr, letsOpt, letsParts, letsPart, letsBlock, braces,
      List.append_nil, List.nil_append]
    exact h1
  | .cons i f as, k => by
    have h1 := Prog.letless sw next f (k + 1) i.nb
    have h2 := Arms.letless sw next as (k + 1 + f.size)
    simp only [Arms.arms, letsArms, letsArm, armOf, letsExpr, letsOpt, letsParts, letsPart, letsBlock, braces,
      List.append_nil, List.nil_append, List.mem_append]
    rintro x (hx | hx)
    · exact h1 x hx
    · exact h2 x hx
end

theorem Prog.letless_source (sw : Nat → Bool) (next : Loc → Option Loc) (p : Prog) (sp : Nat) :
    ∀ e ∈ letsExpr sw next (p.source sp), e.2 = [] := by
  simp only [Prog.source, letsExpr, letsParts, letsPart, letsBlock, letsOpt, List.append_nil]
  exact Prog.letless sw next p 0 0

mutual
/-- Every branch has a step into an arm. -/
theorem Prog.joins_split : ∀ (p : Prog) (k n : Nat), ∀ x ∈ p.joins k n, x.2.2 ≠ []
  | .fin, _, _, x, hx => by simp [Prog.joins] at hx
  | .act _ r, k, n, x, hx => Prog.joins_split r k (n + 1) x hx
  | .bind _ _ r, k, n, x, hx => Prog.joins_split r k (n + 1) x hx
  | .call _ r, k, n, x, hx => Prog.joins_split r (k + 1) 0 x hx
  | .ite _ _ _ _ t e r, k, n, x, hx => by
    simp only [Prog.joins, List.mem_cons, List.mem_append] at hx
    rcases hx with rfl | hx | hx | hx
    · simp
    all_goals exact Prog.joins_split _ _ _ x hx
  | .only _ _ _ t r, k, n, x, hx => by
    simp only [Prog.joins, List.mem_cons, List.mem_append] at hx
    rcases hx with rfl | hx | hx
    · simp
    all_goals exact Prog.joins_split _ _ _ x hx
  | .mtch _ _ _ f as r, k, n, x, hx => by
    simp only [Prog.joins, List.mem_cons, List.mem_append] at hx
    rcases hx with rfl | hx | hx | hx
    · simp
    · exact Prog.joins_split _ _ _ x hx
    · exact Arms.joins_split _ _ x hx
    · exact Prog.joins_split _ _ _ x hx
  | .whl _ _ _ _ _ c t r, k, n, x, hx => by
    simp only [Prog.joins, List.mem_cons, List.mem_append] at hx
    rcases hx with rfl | hx | hx
    · simp
    all_goals exact Prog.joins_split _ _ _ x hx
  | .frl _ _ _ _ _ _ _ _ t r, k, n, x, hx => by
    simp only [Prog.joins, List.mem_cons, List.mem_append] at hx
    rcases hx with rfl | hx | hx
    · simp
    all_goals exact Prog.joins_split _ _ _ x hx
theorem Arms.joins_split : ∀ (as : Arms) (k : Nat), ∀ x ∈ (as.joins k).flatten, x.2.2 ≠ []
  | .last i f, k, x, hx => by
    simp only [Arms.joins, List.flatten_cons, List.flatten_nil, List.append_nil] at hx
    exact Prog.joins_split _ _ _ x hx
  | .cons i f as, k, x, hx => by
    simp only [Arms.joins, List.flatten_cons, List.mem_append] at hx
    rcases hx with hx | hx
    · exact Prog.joins_split _ _ _ x hx
    · exact Arms.joins_split _ _ x hx
end

/-! ## Where steps begin -/

/-- The program has no `if` and no `match`, at any depth. -/
def Prog.Looping : Prog → Prop
  | .fin => True
  | .act _ r => r.Looping
  | .bind _ _ r => r.Looping
  | .call _ r => r.Looping
  | .ite .. => False
  | .only .. => False
  | .mtch .. => False
  | .whl _ _ _ _ _ _ t r => t.Looping ∧ r.Looping
  | .frl _ _ _ _ _ _ _ _ t r => t.Looping ∧ r.Looping

theorem Prog.Looping.joins : ∀ (p : Prog) (k n : Nat), p.Looping → ∀ x ∈ p.joins k n, x.Straight
  | .fin, _, _, _, x, hx => by simp [Prog.joins] at hx
  | .act _ r, k, n, h, x, hx => Prog.Looping.joins r k (n + 1) h x hx
  | .bind _ _ r, k, n, h, x, hx => Prog.Looping.joins r k (n + 1) h x hx
  | .call _ r, k, n, h, x, hx => Prog.Looping.joins r (k + 1) 0 h x hx
  | .whl _ _ _ _ _ c t r, k, n, h, x, hx => by
    simp only [Prog.joins, List.mem_cons, List.mem_append] at hx
    rcases hx with rfl | hx | hx
    · refine ⟨_, List.mem_cons_self, ?_, rfl⟩
      simp only [ne_eq, Loc.mk.injEq]
      omega
    · exact Prog.Looping.joins t _ _ h.1 x hx
    · exact Prog.Looping.joins r _ _ h.2 x hx
  | .frl _ _ _ _ _ _ _ _ t r, k, n, h, x, hx => by
    simp only [Prog.joins, List.mem_cons, List.mem_append] at hx
    rcases hx with rfl | hx | hx
    · refine ⟨_, List.mem_cons_self, ?_, rfl⟩
      simp only [ne_eq, Loc.mk.injEq]
      omega
    · exact Prog.Looping.joins t _ _ h.1 x hx
    · exact Prog.Looping.joins r _ _ h.2 x hx

theorem Arms.entries_lt : ∀ (as : Arms) (k : Nat), ∀ e ∈ as.entries k, e.1.block < k + as.size
  | .last i f, k, e, h => by
    have := f.size_pos
    simp only [Arms.entries, List.mem_singleton] at h
    subst h
    simp only [Prog.size, Arms.size, Arms.limbs, Limbs.size] at *
    omega
  | .cons i f as, k, e, h => by
    have := f.size_pos
    simp only [Arms.entries, List.mem_cons] at h
    rcases h with rfl | h
    · simp only [Prog.size, Arms.size, Arms.limbs, Limbs.size, Bool.toNat_true] at *
      omega
    · have := Arms.entries_lt as _ e h
      simp only [Prog.size, Arms.size, Arms.limbs, Limbs.size, Bool.toNat_true] at *
      omega

mutual
/-- Every step of a program begins at its start, where another step ends, or where the arms of an `if` or `match` come
together. -/
theorem Prog.expected_from (w : List Step) (js : List Fork) (ok : Loc → Prop)
    (h1 : ∀ x ∈ js, ¬ x.Straight → ok x.2.1) (h2 : ∀ x ∈ w, ok x.1 → ok x.2.1) : ∀ (p : Prog) (k n : Nat),
    (∀ x ∈ p.expected k n, x ∈ w) → (∀ x ∈ p.joins k n, x ∈ js) → ok ⟨k, n⟩ →
    (∀ x ∈ p.expected k n, ok x.1) ∧ ok (p.finAt k n)
  | .fin, _, _, _, _, h => ⟨by simp [Prog.expected], h⟩
  | .act sp r, k, n, hw, hj, h => by
    have hn : ok ⟨k, n + 1⟩ := h2 _ (hw _ List.mem_cons_self) h
    obtain ⟨a, b⟩ := Prog.expected_from w js ok h1 h2 r k (n + 1) (fun x hx => hw x (List.mem_cons_of_mem _ hx)) hj hn
    refine ⟨fun x hx => ?_, b⟩
    rcases List.mem_cons.1 hx with rfl | hx
    · exact h
    · exact a x hx
  | .bind sp vs r, k, n, hw, hj, h => by
    have hn : ok ⟨k, n + 1⟩ := h2 _ (hw _ List.mem_cons_self) h
    obtain ⟨a, b⟩ := Prog.expected_from w js ok h1 h2 r k (n + 1) (fun x hx => hw x (List.mem_cons_of_mem _ hx)) hj hn
    refine ⟨fun x hx => ?_, b⟩
    rcases List.mem_cons.1 hx with rfl | hx
    · exact h
    · exact a x hx
  | .call sp r, k, n, hw, hj, h => by
    have hn : ok ⟨k + 1, 0⟩ := h2 _ (hw _ List.mem_cons_self) h
    obtain ⟨a, b⟩ := Prog.expected_from w js ok h1 h2 r (k + 1) 0 (fun x hx => hw x (List.mem_cons_of_mem _ hx)) hj hn
    refine ⟨fun x hx => ?_, b⟩
    rcases List.mem_cons.1 hx with rfl | hx
    · exact h
    · exact a x hx
  | .ite sp lt le hi t e r, k, n, hw, hj, h => by
    have h6 := t.size_pos
    have h7 := e.size_pos
    simp only [Prog.expected, Prog.joins, List.mem_cons, List.mem_append] at hw hj ⊢
    have hn : ok ⟨k, n + 1⟩ := h2 _ (hw _ (.inl rfl)) h
    have he : ok ⟨k + 1, 0⟩ := h2 _ (hw _ (.inr (.inl rfl))) hn
    have ht : ok ⟨k + 1 + e.size, 0⟩ := h2 _ (hw _ (.inr (.inr (.inl rfl)))) hn
    have hr : ok ⟨k + 1 + e.size + t.size, 0⟩ := by
      refine h1 _ (hj _ (.inl rfl)) ?_
      rintro ⟨s, hs, _, he⟩
      simp only [List.mem_cons, List.not_mem_nil, or_false] at hs
      rcases hs with rfl | rfl <;> simp only [Loc.mk.injEq] at he <;> omega
    obtain ⟨a1, _⟩ := Prog.expected_from w js ok h1 h2 t _ _ (fun x hx => hw x (.inr (.inr (.inr (.inl hx)))))
      (fun x hx => hj x (.inr (.inl hx))) ht
    obtain ⟨b1, _⟩ := Prog.expected_from w js ok h1 h2 e _ _ (fun x hx => hw x (.inr (.inr (.inr (.inr (.inl hx))))))
      (fun x hx => hj x (.inr (.inr (.inl hx)))) he
    obtain ⟨c1, c2⟩ := Prog.expected_from w js ok h1 h2 r _ _ (fun x hx => hw x (.inr (.inr (.inr (.inr (.inr hx))))))
      (fun x hx => hj x (.inr (.inr (.inr hx)))) hr
    refine ⟨?_, c2⟩
    rintro x (rfl | rfl | rfl | hx | hx | hx)
    · exact h
    · exact hn
    · exact hn
    · exact a1 x hx
    · exact b1 x hx
    · exact c1 x hx
  | .only sp lt hi t r, k, n, hw, hj, h => by
    have h6 := t.size_pos
    simp only [Prog.expected, Prog.joins, List.mem_cons, List.mem_append] at hw hj ⊢
    have hn : ok ⟨k, n + 1⟩ := h2 _ (hw _ (.inl rfl)) h
    have ht : ok ⟨k + 1 + 1, 0⟩ := h2 _ (hw _ (.inr (.inr (.inl rfl)))) hn
    have hr : ok ⟨k + 1 + 1 + t.size, 0⟩ := by
      refine h1 _ (hj _ (.inl rfl)) ?_
      rintro ⟨s, hs, _, he⟩
      simp only [List.mem_cons, List.not_mem_nil, or_false] at hs
      rcases hs with rfl | rfl <;> simp only [Loc.mk.injEq] at he <;> omega
    obtain ⟨a1, _⟩ := Prog.expected_from w js ok h1 h2 t _ _ (fun x hx => hw x (.inr (.inr (.inr (.inl hx)))))
      (fun x hx => hj x (.inr (.inl hx))) ht
    obtain ⟨c1, c2⟩ := Prog.expected_from w js ok h1 h2 r _ _ (fun x hx => hw x (.inr (.inr (.inr (.inr hx)))))
      (fun x hx => hj x (.inr (.inr hx))) hr
    refine ⟨?_, c2⟩
    rintro x (rfl | rfl | rfl | hx | hx)
    · exact h
    · exact hn
    · exact hn
    · exact a1 x hx
    · exact c1 x hx
  | .mtch sp ds i f as r, k, n, hw, hj, h => by
    have h6 := f.size_pos
    have h7 := as.size_pos
    simp only [Prog.expected, Prog.joins, List.mem_cons, List.mem_append, List.map_cons] at hw hj ⊢
    have hn : ok ⟨k, n + 1⟩ := h2 _ (hw _ (.inl rfl)) h
    have hf : ok ⟨k + 1 + 1, i.nb⟩ := h2 _ (hw _ (.inr (.inl (.inl rfl)))) hn
    have hr : ok ⟨k + 1 + 1 + f.size + as.size, 0⟩ := by
      refine h1 _ (hj _ (.inl rfl)) ?_
      rintro ⟨s, hs, _, he⟩
      simp only [List.mem_cons, List.mem_map] at hs
      rcases hs with rfl | ⟨y, hy, rfl⟩
      · simp only [Loc.mk.injEq] at he; omega
      · have := Arms.entries_lt as _ y hy
        dsimp only at he
        rw [he] at this
        dsimp only at this
        omega
    obtain ⟨a1, _⟩ := Prog.expected_from w js ok h1 h2 f _ _
      (fun x hx => hw x (.inr (.inr (.inl (.inr hx))))) (fun x hx => hj x (.inr (.inl hx))) hf
    have b1 := Arms.expected_from w js ok h1 h2 as _ k (n + 1)
      (fun x hx => hw x (.inr (.inl (.inr hx)))) (fun x hx => hw x (.inr (.inr (.inr (.inl hx)))))
      (fun x hx => hj x (.inr (.inr (.inl hx)))) hn
    obtain ⟨c1, c2⟩ := Prog.expected_from w js ok h1 h2 r _ _ (fun x hx => hw x (.inr (.inr (.inr (.inr hx)))))
      (fun x hx => hj x (.inr (.inr (.inr hx)))) hr
    refine ⟨?_, c2⟩
    rintro x (rfl | (rfl | hx) | (rfl | hx) | hx | hx)
    · exact h
    · exact hn
    · obtain ⟨y, _, rfl⟩ := List.mem_map.1 hx
      exact hn
    · exact hf
    · exact a1 x hx
    · exact b1 x hx
    · exact c1 x hx
  | .whl sp sc lt hi sb c t r, k, n, hw, hj, h => by
    simp only [Prog.expected, Prog.joins, List.mem_cons, List.mem_append] at hw hj ⊢
    have hc : ok ⟨k + 2 + c, 1⟩ := h2 _ (hw _ (.inl rfl)) h
    have hx0 : ok ⟨k + 3 + c + t.size, 0⟩ := h2 _ (hw _ (.inr (.inl rfl))) hc
    have ht : ok ⟨k + 3 + c, 0⟩ := h2 _ (hw _ (.inr (.inr (.inl rfl)))) hc
    have hr : ok ⟨k + 3 + c + t.size, 1⟩ := h2 _ (hw _ (.inr (.inr (.inr (.inr (.inr (.inl rfl))))))) hx0
    obtain ⟨a1, _⟩ := Prog.expected_from w js ok h1 h2 t _ _ (fun x hx => hw x (.inr (.inr (.inr (.inl hx)))))
      (fun x hx => hj x (.inr (.inl hx))) ht
    obtain ⟨c1, c2⟩ := Prog.expected_from w js ok h1 h2 r _ _
      (fun x hx => hw x (.inr (.inr (.inr (.inr (.inr (.inr hx))))))) (fun x hx => hj x (.inr (.inr hx))) hr
    refine ⟨?_, c2⟩
    rintro x (rfl | rfl | rfl | hx | rfl | rfl | hx)
    · exact h
    · exact hc
    · exact hc
    · exact a1 x hx
    · exact hx0
    · exact hx0
    · exact c1 x hx
  | .frl sp sa sc hi sn lb li nb t r, k, n, hw, hj, h => by
    simp only [Prog.expected, Prog.joins, List.mem_cons, List.mem_append] at hw hj ⊢
    have hc : ok ⟨k + 3, 0⟩ := h2 _ (hw _ (.inl rfl)) h
    have hd : ok ⟨k + 4, 0⟩ := h2 _ (hw _ (.inr (.inl rfl))) hc
    have hx0 : ok ⟨k + 6 + t.size, 0⟩ := h2 _ (hw _ (.inr (.inr (.inl rfl)))) hd
    have ht : ok ⟨k + 6, nb⟩ := h2 _ (hw _ (.inr (.inr (.inr (.inl rfl))))) hd
    have hr : ok ⟨k + 6 + t.size, 1⟩ := h2 _ (hw _ (.inr (.inr (.inr (.inr (.inr (.inr (.inr (.inl rfl))))))))) hx0
    obtain ⟨a1, _⟩ := Prog.expected_from w js ok h1 h2 t _ _
      (fun x hx => hw x (.inr (.inr (.inr (.inr (.inr (.inr (.inl hx)))))))) (fun x hx => hj x (.inr (.inl hx))) ht
    obtain ⟨c1, c2⟩ := Prog.expected_from w js ok h1 h2 r _ _
      (fun x hx => hw x (.inr (.inr (.inr (.inr (.inr (.inr (.inr (.inr hx))))))))) (fun x hx => hj x (.inr (.inr hx))) hr
    refine ⟨?_, c2⟩
    rintro x (rfl | rfl | rfl | rfl | rfl | rfl | hx | rfl | hx)
    · exact h
    · exact hc
    · exact hd
    · exact hd
    · exact hx0
    · exact ht
    · exact a1 x hx
    · exact hx0
    · exact c1 x hx
theorem Arms.expected_from (w : List Step) (js : List Fork) (ok : Loc → Prop)
    (h1 : ∀ x ∈ js, ¬ x.Straight → ok x.2.1) (h2 : ∀ x ∈ w, ok x.1 → ok x.2.1) : ∀ (as : Arms) (k a n : Nat),
    (∀ x ∈ (as.entries k).map (fun e => ((⟨a, n⟩, e.1, e.2) : Step)), x ∈ w) → (∀ x ∈ (as.expected k).flatten, x ∈ w) →
    (∀ x ∈ (as.joins k).flatten, x ∈ js) → ok ⟨a, n⟩ → ∀ x ∈ (as.expected k).flatten, ok x.1
  | .last i f, k, a, n, he, hw, hj, h => by
    simp only [Arms.entries, Arms.expected, Arms.joins, List.map_cons, List.map_nil, List.flatten_cons, List.flatten_nil,
      List.append_nil, List.mem_cons, List.not_mem_nil, or_false] at he hw hj ⊢
    have hf : ok ⟨k, i.nb⟩ := h2 _ (he _ rfl) h
    obtain ⟨a1, _⟩ := Prog.expected_from w js ok h1 h2 f _ _ (fun x hx => hw x (.inr hx)) hj hf
    rintro x (rfl | hx)
    · exact hf
    · exact a1 x hx
  | .cons i f as, k, a, n, he, hw, hj, h => by
    simp only [Arms.entries, Arms.expected, Arms.joins, List.map_cons, List.flatten_cons, List.cons_append,
      List.mem_cons, List.mem_append] at he hw hj ⊢
    have hf : ok ⟨k + 1, i.nb⟩ := h2 _ (he _ (.inl rfl)) h
    obtain ⟨a1, _⟩ := Prog.expected_from w js ok h1 h2 f _ _ (fun x hx => hw x (.inr (.inl hx)))
      (fun x hx => hj x (.inl hx)) hf
    have b1 := Arms.expected_from w js ok h1 h2 as _ a n (fun x hx => he x (.inr hx))
      (fun x hx => hw x (.inr (.inr hx))) (fun x hx => hj x (.inr hx)) h
    rintro x (rfl | hx | hx)
    · exact hf
    · exact a1 x hx
    · exact b1 x hx
end

end Verif.Walk
