import Verif.Walk.Props
/-!
# C103: where the steps and branches of a program end
-/
namespace Verif.Walk

open Verif.Cfg Verif.Segments Verif.HirSteps

/-- The number of steps that go somewhere and end at the location. -/
def stepEnds (l : Loc) (w : List Step) : Nat := w.countP (fun x => decide (x.1 ≠ x.2.1 ∧ x.2.1 = l))

/-- The number of branches that end at the location. -/
def joinEnds (l : Loc) (bs : List Fork) : Nat := bs.countP (fun x => decide (x.2.1 = l))

theorem stepEnds_nil (l : Loc) : stepEnds l [] = 0 := rfl

theorem stepEnds_append (l : Loc) (w w' : List Step) : stepEnds l (w ++ w') = stepEnds l w + stepEnds l w' :=
  List.countP_append

theorem stepEnds_cons (l : Loc) (a i b j sp : Nat) (w : List Step) : stepEnds l ((⟨a, i⟩, ⟨b, j⟩, sp) :: w) =
    stepEnds l w + if ¬ (a = b ∧ i = j) ∧ b = l.block ∧ j = l.idx then 1 else 0 := by
  unfold stepEnds
  rw [List.countP_cons]
  congr 1
  obtain ⟨x, y⟩ := l
  simp only [ne_eq, Loc.mk.injEq, decide_eq_true_eq]

theorem joinEnds_nil (l : Loc) : joinEnds l [] = 0 := rfl

theorem joinEnds_append (l : Loc) (w w' : List Fork) : joinEnds l (w ++ w') = joinEnds l w + joinEnds l w' :=
  List.countP_append

theorem joinEnds_cons (l : Loc) (x : Loc) (a i : Nat) (s : List Step) (w : List Fork) :
    joinEnds l ((x, ⟨a, i⟩, s) :: w) = joinEnds l w + if a = l.block ∧ i = l.idx then 1 else 0 := by
  unfold joinEnds
  rw [List.countP_cons]
  congr 1
  obtain ⟨x, y⟩ := l
  simp [Loc.mk.injEq]

theorem Prog.finAt_block : ∀ (p : Prog) (k n : Nat), (p.finAt k n).block + 1 = k + p.size
  | .fin, _, _ => rfl
  | .act _ r, k, n => Prog.finAt_block r k (n + 1)
  | .bind _ _ r, k, n => Prog.finAt_block r k (n + 1)
  | .call _ r, k, n => by
    have := Prog.finAt_block r (k + 1) 0; simp only [Prog.finAt, Prog.size, Prog.shape, Shape.size] at *; omega
  | .ite _ _ _ _ t e r, k, n => by
    have := Prog.finAt_block r (k + 1 + e.size + t.size) 0
    simp only [Prog.finAt, Prog.size, Prog.shape, Shape.size, Limbs.size, Bool.toNat_false] at *; omega
  | .only _ _ _ t r, k, n => by
    have := Prog.finAt_block r (k + 1 + 1 + t.size) 0
    simp only [Prog.finAt, Prog.size, Prog.shape, Shape.size, Limbs.size, Bool.toNat_false] at *; omega
  | .mtch _ _ _ f as r, k, n => by
    have := Prog.finAt_block r (k + 1 + 1 + f.size + as.size) 0
    simp only [Prog.finAt, Prog.size, Arms.size, Prog.shape, Shape.size, Limbs.size, Bool.toNat_true] at *; omega
  | .whl _ _ _ _ _ c t r, k, n => by
    have := Prog.finAt_block r (k + 3 + c + t.size) 1
    simp only [Prog.finAt, Prog.size, Prog.shape, Shape.size, Bool.toNat_false] at *; omega
  | .frl _ _ _ _ _ _ _ _ t r, k, n => by
    have := Prog.finAt_block r (k + 6 + t.size) 1
    simp only [Prog.finAt, Prog.size, Prog.shape, Shape.size, Bool.toNat_true] at *; omega

theorem Prog.finAt_idx : ∀ (p : Prog) (k n : Nat), (p.finAt k n).block = k → n ≤ (p.finAt k n).idx
  | .fin, _, _, _ => Nat.le_refl _
  | .act _ r, k, n, h => by have := Prog.finAt_idx r k (n + 1) h; simp only [Prog.finAt]; omega
  | .bind _ _ r, k, n, h => by have := Prog.finAt_idx r k (n + 1) h; simp only [Prog.finAt]; omega
  | .call _ r, k, n, h => by
    have := Prog.finAt_block r (k + 1) 0; have := r.size_pos; simp only [Prog.finAt] at h; omega
  | .ite _ _ _ _ t e r, k, n, h => by
    have := Prog.finAt_block r (k + 1 + e.size + t.size) 0; have := r.size_pos; simp only [Prog.finAt] at h; omega
  | .only _ _ _ t r, k, n, h => by
    have := Prog.finAt_block r (k + 1 + 1 + t.size) 0; have := r.size_pos; simp only [Prog.finAt] at h; omega
  | .mtch _ _ _ f as r, k, n, h => by
    have := Prog.finAt_block r (k + 1 + 1 + f.size + as.size) 0; have := r.size_pos; simp only [Prog.finAt] at h; omega
  | .whl _ _ _ _ _ c t r, k, n, h => by
    have := Prog.finAt_block r (k + 3 + c + t.size) 1; have := r.size_pos; simp only [Prog.finAt] at h; omega
  | .frl _ _ _ _ _ _ _ _ t r, k, n, h => by
    have := Prog.finAt_block r (k + 6 + t.size) 1; have := r.size_pos; simp only [Prog.finAt] at h; omega

/-- The location lies behind the start of the program and not behind its end. -/
def Prog.Spans (p : Prog) (k n : Nat) (l : Loc) : Prop :=
  k ≤ l.block ∧ l.block < k + p.size ∧ (l.block = k → n < l.idx) ∧
    (l.block + 1 = k + p.size → l.idx ≤ (p.finAt k n).idx)

set_option maxHeartbeats 1000000 in
mutual
/-- At most one step and at most one branch end at a location, and only within the program. -/
theorem Prog.ends : ∀ (p : Prog) (k n : Nat) (l : Loc),
    stepEnds l (p.expected k n) ≤ 1 ∧ joinEnds l (p.joins k n) ≤ 1 ∧
      (stepEnds l (p.expected k n) + joinEnds l (p.joins k n) ≠ 0 → p.Spans k n l)
  | .fin, k, n, l => by simp [Prog.expected, Prog.joins, stepEnds_nil, joinEnds_nil]
  | .act sp r, k, n, l => by
    have h := Prog.ends r k (n + 1) l
    have h3 := r.finAt_block k (n + 1)
    have h4 := r.finAt_idx k (n + 1)
    have h5 := r.size_pos
    simp only [Prog.expected, Prog.joins, stepEnds_cons, Prog.Spans, Prog.size, Prog.shape, Prog.finAt,
      and_self, not_true_eq_false, false_and, ↓reduceIte, Nat.add_zero] at *
    split <;> omega
  | .bind sp _ r, k, n, l => by
    have h := Prog.ends r k (n + 1) l
    have h3 := r.finAt_block k (n + 1)
    have h4 := r.finAt_idx k (n + 1)
    have h5 := r.size_pos
    simp only [Prog.expected, Prog.joins, stepEnds_cons, Prog.Spans, Prog.size, Prog.shape, Prog.finAt,
      and_self, not_true_eq_false, false_and, ↓reduceIte, Nat.add_zero] at *
    split <;> omega
  | .call sp r, k, n, l => by
    have h := Prog.ends r (k + 1) 0 l
    have h3 := r.finAt_block (k + 1) 0
    have h5 := r.size_pos
    simp only [Prog.expected, Prog.joins, stepEnds_cons, Prog.Spans, Prog.size, Prog.shape, Shape.size, Prog.finAt,
      and_self, not_true_eq_false, false_and, ↓reduceIte, Nat.add_zero] at *
    split <;> omega
  | .ite sp lt le hi t e r, k, n, l => by
    have a := Prog.ends t (k + 1 + e.size) 0 l
    have b := Prog.ends e (k + 1) 0 l
    have c := Prog.ends r (k + 1 + e.size + t.size) 0 l
    have h3 := r.finAt_block (k + 1 + e.size + t.size) 0
    have h5 := r.size_pos
    have h6 := t.size_pos
    have h7 := e.size_pos
    simp only [Prog.expected, Prog.joins, stepEnds_cons, stepEnds_append, joinEnds_cons, joinEnds_append, Prog.Spans,
      Prog.size, Prog.shape, Shape.size, Limbs.size, Bool.toNat_false, Prog.finAt,
      and_self, not_true_eq_false, false_and, ↓reduceIte, Nat.add_zero] at *
    repeat' split
    all_goals omega
  | .only sp lt hi t r, k, n, l => by
    have a := Prog.ends t (k + 1 + 1) 0 l
    have c := Prog.ends r (k + 1 + 1 + t.size) 0 l
    have h3 := r.finAt_block (k + 1 + 1 + t.size) 0
    have h5 := r.size_pos
    have h6 := t.size_pos
    simp only [Prog.expected, Prog.joins, stepEnds_cons, stepEnds_append, joinEnds_cons, joinEnds_append, Prog.Spans,
      Prog.size, Prog.shape, Shape.size, Limbs.size, Bool.toNat_false, Prog.finAt,
      and_self, not_true_eq_false, false_and, ↓reduceIte, Nat.add_zero] at *
    repeat' split
    all_goals omega
  | .mtch sp ds i f as r, k, n, l => by
    have a := Prog.ends f (k + 1 + 1) i.nb l
    have b := Arms.ends as (k + 1 + 1 + f.size) k (n + 1) l (by omega)
    have c := Prog.ends r (k + 1 + 1 + f.size + as.size) 0 l
    have h3 := r.finAt_block (k + 1 + 1 + f.size + as.size) 0
    have h5 := r.size_pos
    have h6 := f.size_pos
    have h7 := as.size_pos
    simp only [Prog.expected, Prog.joins, List.map_cons, List.cons_append, stepEnds_cons, stepEnds_append, joinEnds_cons,
      joinEnds_append, Prog.Spans, Prog.size, Arms.size, Prog.shape, Shape.size, Limbs.size, Bool.toNat_true, Prog.finAt,
      and_self, not_true_eq_false, false_and, ↓reduceIte, Nat.add_zero] at *
    repeat' split
    all_goals omega
  | .whl sp sc lt hi sb c t r, k, n, l => by
    have a := Prog.ends t (k + 3 + c) 0 l
    have b := Prog.ends r (k + 3 + c + t.size) 1 l
    have h3 := r.finAt_block (k + 3 + c + t.size) 1
    have h4 := r.finAt_idx (k + 3 + c + t.size) 1
    have h5 := r.size_pos
    have h6 := t.size_pos
    simp only [Prog.expected, Prog.joins, stepEnds_cons, stepEnds_append, joinEnds_cons, joinEnds_append, Prog.Spans,
      Prog.size, Prog.shape, Shape.size, Bool.toNat_false, Prog.finAt,
      and_self, not_true_eq_false, false_and, ↓reduceIte, Nat.add_zero] at *
    repeat' split
    all_goals omega
  | .frl sp sa sc hi sn lb li nb t r, k, n, l => by
    have a := Prog.ends t (k + 6) nb l
    have b := Prog.ends r (k + 6 + t.size) 1 l
    have h3 := r.finAt_block (k + 6 + t.size) 1
    have h4 := r.finAt_idx (k + 6 + t.size) 1
    have h5 := r.size_pos
    have h6 := t.size_pos
    simp only [Prog.expected, Prog.joins, stepEnds_cons, stepEnds_append, joinEnds_cons, joinEnds_append, Prog.Spans,
      Prog.size, Prog.shape, Shape.size, Bool.toNat_true, Prog.finAt,
      and_self, not_true_eq_false, false_and, ↓reduceIte, Nat.add_zero] at *
    repeat' split
    all_goals omega
theorem Arms.ends : ∀ (as : Arms) (k a n : Nat) (l : Loc), a < k →
    stepEnds l ((as.entries k).map (fun e => (⟨a, n⟩, e.1, e.2))) + stepEnds l (as.expected k).flatten ≤ 1 ∧
      joinEnds l (as.joins k).flatten ≤ 1 ∧
      (stepEnds l ((as.entries k).map (fun e => (⟨a, n⟩, e.1, e.2))) + stepEnds l (as.expected k).flatten +
        joinEnds l (as.joins k).flatten ≠ 0 → k ≤ l.block ∧ l.block < k + as.size)
  | .last i f, k, a, n, l, ha => by
    have h := Prog.ends f k i.nb l
    have h6 := f.size_pos
    simp only [Arms.entries, Arms.expected, Arms.joins, List.map_cons, List.map_nil, List.flatten_cons, List.flatten_nil,
      List.append_nil, stepEnds_cons, stepEnds_nil, Prog.Spans, Prog.size, Arms.size, Arms.limbs, Limbs.size,
      Bool.toNat_false,
      and_self, not_true_eq_false, false_and, ↓reduceIte, Nat.add_zero] at *
    repeat' split
    all_goals omega
  | .cons i f as, k, a, n, l, ha => by
    have h := Prog.ends f (k + 1) i.nb l
    have h' := Arms.ends as (k + 1 + f.size) a n l (by omega)
    have h6 := f.size_pos
    simp only [Arms.entries, Arms.expected, Arms.joins, List.map_cons, List.flatten_cons, List.cons_append,
      stepEnds_cons, stepEnds_append, joinEnds_append, Prog.Spans, Prog.size, Arms.size, Arms.limbs, Limbs.size,
      Bool.toNat_true,
      and_self, not_true_eq_false, false_and, ↓reduceIte, Nat.add_zero] at *
    repeat' split
    all_goals omega
end

end Verif.Walk
