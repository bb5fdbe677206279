import Verif.Walk.Lang
import Verif.HirSteps.Programs
/-!
# The blocks of a program have its shape
-/
namespace Verif.Walk

open Verif.Cfg Verif.Segments Verif.Graph Verif.HirSteps
open Verif.HirSteps.Prog (Slice Slice.left Slice.right Slice.tail filter_one)

theorem Prog.size_pos (p : Prog) : 0 < p.size := p.shape.pos

mutual
theorem Prog.code_length : ∀ (p : Prog) (k n : Nat) (last : Term), (p.code k n last).length = p.size
  | .fin, _, _, _ => rfl
  | .act _ r, k, n, last => Prog.code_length r k (n + 1) last
  | .bind _ _ r, k, n, last => Prog.code_length r k (n + 1) last
  | .call _ r, k, n, last => by
    simp only [Prog.code, List.length_cons, Prog.code_length r, Prog.size, Prog.shape, Shape.size]
  | .ite _ _ _ _ t e r, k, n, last => by
    simp only [Prog.code, List.length_cons, List.length_append, Prog.code_length r, Prog.code_length t,
      Prog.code_length e, Prog.size, Prog.shape, Shape.size, Limbs.size, Bool.toNat_false]
    omega
  | .only _ _ _ t r, k, n, last => by
    simp only [Prog.code, List.length_cons, List.length_append, Prog.code_length r, Prog.code_length t,
      Prog.size, Prog.shape, Shape.size, Limbs.size, Bool.toNat_false]
    omega
  | .mtch _ _ _ f as r, k, n, last => by
    simp only [Prog.code, List.length_cons, List.length_append, Prog.code_length r, Prog.code_length f,
      Arms.code_length as, Prog.size, Arms.size, Prog.shape, Shape.size, Limbs.size, Bool.toNat_true]
    omega
  | .whl _ _ _ _ _ c t r, k, n, last => by
    simp only [Prog.code, List.length_cons, List.length_append, List.length_map, List.length_range,
      Prog.code_length r, Prog.code_length t, Prog.size, Prog.shape, Shape.size, Bool.toNat_false]
    omega
  | .frl _ _ _ _ _ _ _ _ t r, k, n, last => by
    simp only [Prog.code, List.length_cons, List.length_append, Prog.code_length r, Prog.code_length t,
      Prog.size, Prog.shape, Shape.size, Bool.toNat_true]
    omega
theorem Arms.code_length : ∀ (as : Arms) (k j : Nat), (as.code k j).length = as.size
  | .last i f, k, j => by
    simp only [Arms.code, Prog.code_length f, Prog.size, Arms.size, Arms.limbs, Limbs.size, Bool.toNat_false]
    omega
  | .cons i f as, k, j => by
    simp only [Arms.code, List.length_cons, List.length_append, Prog.code_length f, Arms.code_length as, Prog.size,
      Arms.size, Arms.limbs, Limbs.size, Bool.toNat_true]
    omega
end

theorem Arms.size_pos : ∀ as : Arms, 0 < as.size
  | .last _ f => by have := f.shape.pos; simp only [Arms.size, Arms.limbs, Limbs.size]; omega
  | .cons _ f as => by simp only [Arms.size, Arms.limbs, Limbs.size, Bool.toNat_true]; omega

/-! ## What every block is like -/

/-- A property of all blocks together with their numbers. -/
def Every (P : Nat → Cfg.Block → Prop) (k : Nat) (c : List Cfg.Block) : Prop :=
  ∀ (i : Nat) (d : Cfg.Block), c[i]? = some d → P (k + i) d

section
variable {P Q : Nat → Cfg.Block → Prop} {k : Nat} {c c' : List Cfg.Block}

theorem Every.nil : Every P k [] := by
  intro i d h
  simp at h

theorem Every.cons {x : Cfg.Block} (h : P k x) (h' : Every P (k + 1) c) : Every P k (x :: c) := by
  intro i d hi
  cases i with
  | zero =>
    cases hi
    exact h
  | succ i =>
    have := h' i d hi
    rwa [Nat.add_assoc, Nat.add_comm 1 i] at this

theorem Every.append {m : Nat} (hm : m = k + c.length) (h : Every P k c) (h' : Every P m c') : Every P k (c ++ c') := by
  subst hm
  intro i d hi
  by_cases hl : i < c.length
  · rw [List.getElem?_append_left hl] at hi
    exact h i d hi
  · rw [List.getElem?_append_right (by omega)] at hi
    have := h' _ d hi
    rwa [show k + c.length + (i - c.length) = k + i by omega] at this

theorem Every.mono (h : Every P k c) (hPQ : ∀ u d, k ≤ u → u < k + c.length → P u d → Q u d) : Every Q k c := by
  intro i d hi
  have := (List.getElem?_eq_some_iff.1 hi).1
  exact hPQ _ d (by omega) (by omega) (h i d hi)

end

/-- What is known about a block of code that ends before the number `e`. -/
structure Good (e : Nat) (last : Term) (u : Nat) (d : Cfg.Block) : Prop where
  kept : d.cleanup = false
  reachable : d.term ≠ .unreachable
  imaginary : ∀ r i, d.term = .falseEdge r i → i ≠ u
  targets : ∀ x ∈ d.term.targets, x < e ∨ x ∈ last.targets
  ret : d.term = .ret ↔ last = .ret ∧ u + 1 = e

/-- Inner code. -/
theorem Good.inner {e e' t u : Nat} {last : Term} {d : Cfg.Block} (h : Good e' (.goto t) u d) (he : e' ≤ e) (ht : t < e)
    (hu : u + 1 < e) : Good e last u d where
  kept := h.kept
  reachable := h.reachable
  imaginary := h.imaginary
  targets := by
    intro x hx
    rcases h.targets x hx with h | h
    · exact .inl (by omega)
    · simp only [Term.targets, List.mem_singleton] at h
      exact .inl (by omega)
  ret := by
    rw [h.ret]
    constructor
    · rintro ⟨h, _⟩
      cases h
    · rintro ⟨_, h⟩
      omega

/-- Code at the end. -/
theorem Good.same {e e' u : Nat} {last : Term} {d : Cfg.Block} (h : Good e' last u d) (he : e' = e) : Good e last u d :=
  he ▸ h

/-- A block in the middle. -/
theorem Good.mid {e u : Nat} {last : Term} {d : Cfg.Block} (h1 : d.cleanup = false) (h2 : d.term ≠ .unreachable)
    (h3 : ∀ r i, d.term = .falseEdge r i → i ≠ u) (h4 : ∀ x ∈ d.term.targets, x < e) (h5 : d.term ≠ .ret)
    (h6 : u + 1 < e) : Good e last u d :=
  ⟨h1, h2, h3, fun x hx => .inl (h4 x hx), fun h => absurd h h5, fun h => absurd h.2 (by omega)⟩

theorem Arms.starts_lt : ∀ (as : Arms) (k : Nat), ∀ x ∈ as.starts k, x < k + as.size
  | .last i f, k, x, hx => by
    have := f.shape.pos
    simp only [Arms.starts, List.mem_singleton] at hx
    simp only [Arms.size, Arms.limbs, Limbs.size]
    omega
  | .cons i f as, k, x, hx => by
    simp only [Arms.starts, List.mem_cons] at hx
    simp only [Arms.size, Arms.limbs, Limbs.size, Bool.toNat_true]
    rcases hx with rfl | hx
    · omega
    · have := Arms.starts_lt as _ x hx
      simp only [Arms.size, Prog.size] at this
      omega

mutual
theorem Prog.good : ∀ (p : Prog) (k n : Nat) (last : Term), (last = .ret ∨ ∃ t, last = .goto t) →
    Every (Good (k + p.size) last) k (p.code k n last)
  | .fin, k, n, last, hl => by
    refine .cons ?_ .nil
    rcases hl with rfl | ⟨t, rfl⟩
    · exact ⟨rfl, by simp, by simp, by simp [Term.targets], by simp [Prog.size, Prog.shape, Shape.size]⟩
    · exact ⟨rfl, by simp, by simp, by simp [Term.targets], by simp⟩
  | .act _ r, k, n, last, hl => Prog.good r k (n + 1) last hl
  | .bind _ _ r, k, n, last, hl => Prog.good r k (n + 1) last hl
  | .call a r, k, n, last, hl => by
    have hp := r.size_pos
    have he : k + (Prog.call a r).size = k + 1 + r.size := by simp only [Prog.size, Prog.shape, Shape.size]; omega
    rw [he]
    refine .cons (.mid rfl (by simp) (by simp) ?_ (by simp) (by omega)) (Prog.good r _ 0 last hl)
    simp only [Term.targets, List.mem_singleton]
    omega
  | .ite a b c d t e r, k, n, last, hl => by
    have hr := r.size_pos
    have ht := t.size_pos
    have h1 := e.size_pos
    have he : k + (Prog.ite a b c d t e r).size = k + 1 + e.size + t.size + r.size := by
      simp only [Prog.size, Prog.shape, Shape.size, Limbs.size, Bool.toNat_false]; omega
    rw [he]
    refine .cons (.mid rfl (by simp) (by simp) ?_ (by simp) (by omega)) (.append (m := k + 1 + e.size)
      (by rw [Prog.code_length]) ?_ (.append (m := k + 1 + e.size + t.size) (by rw [Prog.code_length]) ?_
        (Prog.good r _ 0 last hl)))
    · simp only [Term.targets, List.mem_cons, List.not_mem_nil, or_false]
      omega
    · exact (Prog.good e _ 0 _ (.inr ⟨_, rfl⟩)).mono fun u d h1 h2 h => by
        rw [Prog.code_length] at h2
        exact h.inner (by omega) (by omega) (by omega)
    · exact (Prog.good t _ 0 _ (.inr ⟨_, rfl⟩)).mono fun u d h1 h2 h => by
        rw [Prog.code_length] at h2
        exact h.inner (by omega) (by omega) (by omega)
  | .only a b c t r, k, n, last, hl => by
    have hr := r.size_pos
    have ht := t.size_pos
    have he : k + (Prog.only a b c t r).size = k + 1 + 1 + t.size + r.size := by
      simp only [Prog.size, Prog.shape, Shape.size, Limbs.size, Bool.toNat_false]; omega
    rw [he]
    refine .cons (.mid rfl (by simp) (by simp) ?_ (by simp) (by omega)) (.cons (.mid rfl (by simp) (by simp) ?_ (by simp)
      (by omega)) (.append (m := k + 1 + 1 + t.size) (by rw [Prog.code_length]) ?_ (Prog.good r _ 0 last hl)))
    · simp only [Term.targets, List.mem_cons, List.not_mem_nil, or_false]
      omega
    · simp only [Term.targets, List.mem_singleton]
      omega
    · exact (Prog.good t _ 0 _ (.inr ⟨_, rfl⟩)).mono fun u d h1 h2 h => by
        rw [Prog.code_length] at h2
        exact h.inner (by omega) (by omega) (by omega)
  | .mtch a b i f as r, k, n, last, hl => by
    have hr := r.size_pos
    have hf := f.size_pos
    have ha := as.size_pos
    have he : k + (Prog.mtch a b i f as r).size = k + 1 + 1 + f.size + as.size + r.size := by
      simp only [Prog.size, Arms.size, Prog.shape, Shape.size, Limbs.size, Bool.toNat_true]; omega
    rw [he]
    refine .cons (.mid rfl (by simp) (by simp) ?_ (by simp) (by omega)) (.cons (.mid rfl (by simp) ?_ ?_ (by simp)
      (by omega)) (.append (m := k + 1 + 1 + f.size) (by rw [Prog.code_length]) ?_
      (.append (m := k + 1 + 1 + f.size + as.size) (by rw [Arms.code_length]) ?_ (Prog.good r _ 0 last hl))))
    · intro x hx
      simp only [Term.targets, List.mem_cons] at hx
      rcases hx with rfl | hx
      · omega
      · have := as.starts_lt _ x hx
        omega
    · intro r' i' h
      simp only [Term.falseEdge.injEq] at h
      omega
    · simp only [Term.targets, List.mem_cons, List.not_mem_nil, or_false]
      omega
    · exact (Prog.good f _ _ _ (.inr ⟨_, rfl⟩)).mono fun u d h1 h2 h => by
        rw [Prog.code_length] at h2
        exact h.inner (by omega) (by omega) (by omega)
    · exact (Arms.good as _ _).mono fun u d h1 h2 h => by
        rw [Arms.code_length] at h2
        exact h.inner (by omega) (by omega) (by omega)
  | .whl a b c' d e c t r, k, n, last, hl => by
    have hr := r.size_pos
    have ht := t.size_pos
    have he : k + (Prog.whl a b c' d e c t r).size = k + 3 + c + t.size + r.size := by
      simp only [Prog.size, Prog.shape, Shape.size, Bool.toNat_false]; omega
    rw [he]
    refine .cons (.mid rfl (by simp) (by simp) ?_ (by simp) (by omega)) (.cons (.mid rfl (by simp) (by simp) ?_ (by simp)
      (by omega)) (.append (m := k + 2 + c) (by simp) ?_ (.cons (.mid rfl (by simp) (by simp) ?_ (by simp)
      (by omega)) (.append (m := k + 3 + c + t.size) (by rw [Prog.code_length]; omega) ?_ (Prog.good r _ 1 last hl)))))
    · simp only [Term.targets, List.mem_singleton]
      omega
    · simp only [Term.targets, List.mem_singleton]
      omega
    · intro i d hi
      have hlt := (List.getElem?_eq_some_iff.1 hi).1
      simp only [List.length_map, List.length_range] at hlt
      rw [List.getElem?_map, List.getElem?_range hlt] at hi
      simp only [Option.map_some, Option.some.injEq] at hi
      subst hi
      refine .mid rfl (by simp) (by simp) ?_ (by simp) (by omega)
      simp only [Term.targets, List.mem_singleton]
      omega
    · simp only [Term.targets, List.mem_cons, List.not_mem_nil, or_false]
      omega
    · have := Prog.good t (k + 3 + c) 0 (.goto (k + 1)) (.inr ⟨_, rfl⟩)
      rw [show k + 2 + c + 1 = k + 3 + c by omega]
      exact this.mono fun u d h1 h2 h => by
        rw [Prog.code_length] at h2
        exact h.inner (by omega) (by omega) (by omega)
  | .frl a b c d e f g nb t r, k, n, last, hl => by
    have hr := r.size_pos
    have ht := t.size_pos
    have he : k + (Prog.frl a b c d e f g nb t r).size = k + 6 + t.size + r.size := by
      simp only [Prog.size, Prog.shape, Shape.size, Bool.toNat_true]; omega
    rw [he]
    refine .cons (.mid rfl (by simp) (by simp) ?_ (by simp) (by omega)) (.cons (.mid rfl (by simp) (by simp) ?_ (by simp)
      (by omega)) (.cons (.mid rfl (by simp) (by simp) ?_ (by simp) (by omega)) (.cons (.mid rfl (by simp) (by simp) ?_
      (by simp) (by omega)) (.cons (.mid rfl (by simp) (by simp) ?_ (by simp) (by omega)) (.cons (.mid rfl (by simp)
      ?_ ?_ (by simp) (by omega)) (.append (m := k + 6 + t.size) (by rw [Prog.code_length]) ?_
      (Prog.good r _ 1 last hl)))))))
    · simp only [Term.targets, List.mem_singleton]
      omega
    · simp only [Term.targets, List.mem_singleton]
      omega
    · simp only [Term.targets, List.mem_singleton]
      omega
    · simp only [Term.targets, List.mem_singleton]
      omega
    · simp only [Term.targets, List.mem_cons, List.not_mem_nil, or_false]
      omega
    · intro r' i' h
      simp only [Term.falseEdge.injEq] at h
      omega
    · simp only [Term.targets, List.mem_cons, List.not_mem_nil, or_false]
      omega
    · exact (Prog.good t (k + 6) nb (.goto (k + 2)) (.inr ⟨_, rfl⟩)).mono fun u d h1 h2 h => by
        rw [Prog.code_length] at h2
        exact h.inner (by omega) (by omega) (by omega)
theorem Arms.good : ∀ (as : Arms) (k j : Nat), Every (Good (k + as.size) (.goto j)) k (as.code k j)
  | .last i f, k, j => by
    refine (Prog.good f k i.nb _ (.inr ⟨_, rfl⟩)).mono fun u d _ _ h => h.same ?_
    simp only [Prog.size, Arms.size, Arms.limbs, Limbs.size, Bool.toNat_false]
    omega
  | .cons i f as, k, j => by
    have hf := f.size_pos
    have ha := as.size_pos
    have he : k + (Arms.cons i f as).size = k + 1 + f.size + as.size := by
      simp only [Prog.size, Arms.size, Arms.limbs, Limbs.size, Bool.toNat_true]; omega
    rw [he]
    have lift : ∀ {e' u : Nat} {d : Cfg.Block}, Good e' (.goto j) u d → e' ≤ k + 1 + f.size + as.size →
        Good (k + 1 + f.size + as.size) (.goto j) u d := by
      intro e' u d h he'
      refine ⟨h.kept, h.reachable, h.imaginary, fun x hx => ?_, ?_⟩
      · rcases h.targets x hx with h | h
        · exact .inl (by omega)
        · exact .inr h
      · rw [h.ret]
        simp
    refine .cons (.mid rfl (by simp) ?_ ?_ (by simp) (by omega)) (.append (m := k + 1 + f.size)
      (by rw [Prog.code_length]) ((Prog.good f _ _ _ (.inr ⟨_, rfl⟩)).mono fun u d _ _ h => lift h (by omega))
      (Arms.good as _ _))
    · intro r' i' h
      simp only [Term.falseEdge.injEq] at h
      omega
    · simp only [Term.targets, List.mem_cons, List.not_mem_nil, or_false]
      omega
end

/-! ## Successors -/

/-- Nothing is removed from the graph. -/
structure Fine (b : Body) : Prop where
  kept : ∀ d ∈ b, d.cleanup = false ∧ d.term ≠ .unreachable
  imaginary : ∀ t r i, b.term t = .falseEdge r i → i ≠ t

theorem term_of {b : Body} {k : Nat} {d : Cfg.Block} (hd : b[k]? = some d) : b.term k = d.term := by
  unfold Body.term
  rw [hd]

theorem Fine.succ {b : Body} (hb : Fine b) {k : Nat} {d : Cfg.Block} (hd : b[k]? = some d)
    (ht : ∀ t ∈ d.term.targets, t < b.length) : b.succ k = d.term.targets := by
  unfold Body.succ Body.rawSucc
  rw [term_of hd, List.filter_eq_self]
  intro t htm
  obtain ⟨x, hx⟩ : ∃ x, b[t]? = some x := ⟨_, List.getElem?_eq_getElem (ht t htm)⟩
  obtain ⟨h1, h2⟩ := hb.kept x (List.mem_of_getElem? hx)
  have hk : b.keep t = true := by
    unfold Body.keep
    rw [hx]
    simp [h1, h2]
  have hi : isImaginaryTarget (b.term t) t = false := by
    cases h : isImaginaryTarget (b.term t) t with
    | false => rfl
    | true =>
      unfold isImaginaryTarget at h
      split at h
      · rename_i r i he
        exact absurd (by simpa using h) (hb.imaginary t _ _ he)
      · exact absurd h (by simp)
  rw [hk, hi]
  rfl

/-! ## The slices of a construct -/

theorem slice_lt {b : Body} {p : Prog} {k n : Nat} {last : Term} (h : Slice b k (p.code k n last)) :
    k + p.size ≤ b.length := by
  have hp := p.size_pos
  have hl := p.code_length k n last
  have := h (p.size - 1) _ (List.getElem?_eq_getElem (by omega))
  have := (List.getElem?_eq_some_iff.1 this).1
  omega

theorem slices_lt {b : Body} {as : Arms} {k j : Nat} (h : Slice b k (as.code k j)) : k + as.size ≤ b.length := by
  have hp := as.size_pos
  have hl := as.code_length k j
  have := h (as.size - 1) _ (List.getElem?_eq_getElem (by omega))
  have := (List.getElem?_eq_some_iff.1 this).1
  omega

theorem slice_ite {b : Body} {sp lt le hi : Nat} {t e r : Prog} {k n : Nat} {last : Term}
    (h : Slice b k ((Prog.ite sp lt le hi t e r).code k n last)) :
    b[k]? = some ⟨n + 1, .switchInt [k + 1, k + 1 + e.size], false⟩ ∧
    Slice b (k + 1) (e.code (k + 1) 0 (.goto (k + 1 + e.size + t.size))) ∧
    Slice b (k + 1 + e.size) (t.code (k + 1 + e.size) 0 (.goto (k + 1 + e.size + t.size))) ∧
    Slice b (k + 1 + e.size + t.size) (r.code (k + 1 + e.size + t.size) 0 last) := by
  rw [Prog.code] at h
  obtain ⟨h1, h2⟩ := Slice.tail h
  have h3 := h2.right
  rw [Prog.code_length] at h3
  have h4 := h3.right
  rw [Prog.code_length] at h4
  exact ⟨h1, h2.left, h3.left, h4⟩

theorem slice_only {b : Body} {sp lt hi : Nat} {t r : Prog} {k n : Nat} {last : Term}
    (h : Slice b k ((Prog.only sp lt hi t r).code k n last)) :
    b[k]? = some ⟨n + 1, .switchInt [k + 1, k + 1 + 1], false⟩ ∧
    b[k + 1]? = some ⟨1, .goto (k + 1 + 1 + t.size), false⟩ ∧
    Slice b (k + 1 + 1) (t.code (k + 1 + 1) 0 (.goto (k + 1 + 1 + t.size))) ∧
    Slice b (k + 1 + 1 + t.size) (r.code (k + 1 + 1 + t.size) 0 last) := by
  rw [Prog.code] at h
  obtain ⟨h1, h2⟩ := Slice.tail h
  obtain ⟨h2, h3⟩ := Slice.tail h2
  have h4 := h3.right
  rw [Prog.code_length] at h4
  exact ⟨h1, h2, h3.left, h4⟩

theorem slice_mtch {b : Body} {sp ds : Nat} {i : ArmInfo} {f : Prog} {as : Arms} {r : Prog} {k n : Nat} {last : Term}
    (h : Slice b k ((Prog.mtch sp ds i f as r).code k n last)) :
    b[k]? = some ⟨n + 1 + ds, .switchInt ((k + 1) :: as.starts (k + 1 + 1 + f.size)), false⟩ ∧
    b[k + 1]? = some ⟨0, .falseEdge (k + 1 + 1) (k + 1 + 1 + f.size), false⟩ ∧
    Slice b (k + 1 + 1) (f.code (k + 1 + 1) i.nb (.goto (k + 1 + 1 + f.size + as.size))) ∧
    Slice b (k + 1 + 1 + f.size) (as.code (k + 1 + 1 + f.size) (k + 1 + 1 + f.size + as.size)) ∧
    Slice b (k + 1 + 1 + f.size + as.size) (r.code (k + 1 + 1 + f.size + as.size) 0 last) := by
  rw [Prog.code] at h
  obtain ⟨h1, h2⟩ := Slice.tail h
  obtain ⟨h2, h3⟩ := Slice.tail h2
  have h4 := h3.right
  rw [Prog.code_length] at h4
  have h5 := h4.right
  rw [Arms.code_length] at h5
  exact ⟨h1, h2, h3.left, h4.left, h5⟩

theorem slice_whl {b : Body} {sp sc lt hi sb c : Nat} {t r : Prog} {k n : Nat} {last : Term}
    (h : Slice b k ((Prog.whl sp sc lt hi sb c t r).code k n last)) :
    b[k]? = some ⟨n, .goto (k + 1), false⟩ ∧ b[k + 1]? = some ⟨0, .falseUnwind (k + 2), false⟩ ∧
    (∀ i < c, b[k + 2 + i]? = some ⟨0, .other [k + 2 + i + 1], false⟩) ∧
    b[k + 2 + c]? = some ⟨1, .switchInt [k + 3 + c + t.size, k + 3 + c], false⟩ ∧
    Slice b (k + 3 + c) (t.code (k + 3 + c) 0 (.goto (k + 1))) ∧
    Slice b (k + 3 + c + t.size) (r.code (k + 3 + c + t.size) 1 last) := by
  rw [Prog.code] at h
  obtain ⟨h1, h2⟩ := Slice.tail h
  obtain ⟨h2, h3⟩ := Slice.tail h2
  have h4 := h3.right
  rw [List.length_map, List.length_range] at h4
  obtain ⟨h5, h6⟩ := Slice.tail h4
  rw [show k + 1 + 1 + c + 1 = k + 3 + c by omega] at h6
  have h7 := h6.right
  rw [Prog.code_length] at h7
  refine ⟨h1, h2, ?_, h5, h6.left, h7⟩
  intro i hi
  exact h3.left i _ (by rw [List.getElem?_map, List.getElem?_range hi]; rfl)

theorem slice_frl {b : Body} {sp sa sc hi sn lb li nb : Nat} {t r : Prog} {k n : Nat} {last : Term}
    (h : Slice b k ((Prog.frl sp sa sc hi sn lb li nb t r).code k n last)) :
    b[k]? = some ⟨n, .other [k + 1], false⟩ ∧ b[k + 1]? = some ⟨1, .goto (k + 2), false⟩ ∧
    b[k + 2]? = some ⟨0, .falseUnwind (k + 3), false⟩ ∧ b[k + 3]? = some ⟨1, .other [k + 4], false⟩ ∧
    b[k + 4]? = some ⟨1, .switchInt [k + 5, k + 6], false⟩ ∧
    b[k + 5]? = some ⟨0, .falseEdge (k + 6 + t.size) (k + 6), false⟩ ∧
    Slice b (k + 6) (t.code (k + 6) nb (.goto (k + 2))) ∧
    Slice b (k + 6 + t.size) (r.code (k + 6 + t.size) 1 last) := by
  rw [Prog.code] at h
  obtain ⟨h1, h2⟩ := Slice.tail h
  obtain ⟨h2, h3⟩ := Slice.tail h2
  obtain ⟨h3, h4⟩ := Slice.tail h3
  obtain ⟨h4, h5⟩ := Slice.tail h4
  obtain ⟨h5, h6⟩ := Slice.tail h5
  obtain ⟨h6, h7⟩ := Slice.tail h6
  have h8 := h7.right
  rw [Prog.code_length] at h8
  exact ⟨h1, h2, h3, h4, h5, h6, h7.left, h8⟩

theorem slice_last {b : Body} {i : ArmInfo} {f : Prog} {k j : Nat} (h : Slice b k ((Arms.last i f).code k j)) :
    Slice b k (f.code k i.nb (.goto j)) := h

theorem slice_cons {b : Body} {i : ArmInfo} {f : Prog} {as : Arms} {k j : Nat}
    (h : Slice b k ((Arms.cons i f as).code k j)) :
    b[k]? = some ⟨0, .falseEdge (k + 1) (k + 1 + f.size), false⟩ ∧
    Slice b (k + 1) (f.code (k + 1) i.nb (.goto j)) ∧ Slice b (k + 1 + f.size) (as.code (k + 1 + f.size) j) := by
  rw [Arms.code] at h
  obtain ⟨h1, h2⟩ := Slice.tail h
  have h3 := h2.right
  rw [Prog.code_length] at h3
  exact ⟨h1, h2.left, h3⟩

/-! ## The shape -/

theorem Arms.starts_parts : ∀ (as : Arms) (k : Nat), as.starts k = (as.limbs.parts k).map (·.1)
  | .last _ _, _ => rfl
  | .cons _ f as, k => by
    rw [Arms.starts, Arms.starts_parts as, Arms.limbs, Limbs.parts]
    rfl

theorem Arms.next : ∀ (as : Arms) (k : Nat), as.limbs.next k = [k]
  | .last _ _, _ => rfl
  | .cons _ _ _, _ => rfl

mutual
theorem Prog.fits {b : Body} (hb : Fine b) : ∀ (p : Prog) (k n : Nat) (last : Term), Slice b k (p.code k n last) →
    (∀ x ∈ last.targets, x < b.length) → p.shape.Fits b.succ k last.targets
  | .fin, k, n, last, hs, hl => by
    have h := Slice.tail hs
    rw [Prog.shape, Shape.Fits]
    exact hb.succ h.1 hl
  | .act _ r, k, n, last, hs, hl => Prog.fits hb r k (n + 1) last hs hl
  | .bind _ _ r, k, n, last, hs, hl => Prog.fits hb r k (n + 1) last hs hl
  | .call _ r, k, n, last, hs, hl => by
    have h := Slice.tail hs
    have hlt := slice_lt h.2
    have hp := r.size_pos
    rw [Prog.shape, Shape.Fits]
    refine ⟨hb.succ h.1 ?_, Prog.fits hb r _ 0 last h.2 hl⟩
    simp only [Term.targets, List.mem_singleton]
    omega
  | .ite _ _ _ _ t e r, k, n, last, hs, hl => by
    obtain ⟨h1, h2, h3, h4⟩ := slice_ite hs
    have hlt := slice_lt h4
    have hp := r.size_pos
    have hpt := t.size_pos
    have hj : k + 1 + (Limbs.cons false e.shape (.cons false t.shape .nil)).size = k + 1 + e.size + t.size := by
      simp only [Limbs.size, Bool.toNat_false, Prog.size]; omega
    rw [Prog.shape, Shape.Fits, hj]
    refine ⟨?_, by simp [Limbs.parts], ?_, Prog.fits hb r _ 0 last h4 hl⟩
    · rw [hb.succ h1]
      · simp [Limbs.parts, Term.targets, Prog.size]
      · simp only [Term.targets, List.mem_cons, List.not_mem_nil, or_false]
        omega
    · refine ⟨by simp, Prog.fits hb e _ 0 _ h2 ?_, by simp, Prog.fits hb t _ 0 _ h3 ?_, trivial⟩
      · simp only [Term.targets, List.mem_singleton]
        omega
      · simp only [Term.targets, List.mem_singleton]
        omega
  | .only _ _ _ t r, k, n, last, hs, hl => by
    obtain ⟨h1, h2, h3, h4⟩ := slice_only hs
    have hlt := slice_lt h4
    have hp := r.size_pos
    have hpt := t.size_pos
    have hj : k + 1 + (Limbs.cons false .fin (.cons false t.shape .nil)).size = k + 1 + 1 + t.size := by
      simp only [Limbs.size, Shape.size, Bool.toNat_false, Prog.size]; omega
    rw [Prog.shape, Shape.Fits, hj]
    refine ⟨?_, by simp [Limbs.parts], ?_, Prog.fits hb r _ 0 last h4 hl⟩
    · rw [hb.succ h1]
      · simp [Limbs.parts, Term.targets, Shape.size]
      · simp only [Term.targets, List.mem_cons, List.not_mem_nil, or_false]
        omega
    · refine ⟨by simp, ?_, by simp, Prog.fits hb t _ 0 _ h3 ?_, trivial⟩
      · show b.succ (k + 1) = [k + 1 + 1 + t.size]
        rw [hb.succ h2]
        · rfl
        · simp only [Term.targets, List.mem_singleton]
          omega
      · simp only [Term.targets, List.mem_singleton]
        omega
  | .mtch _ _ i f as r, k, n, last, hs, hl => by
    obtain ⟨h1, h2, h3, h4, h5⟩ := slice_mtch hs
    have hlt := slice_lt h5
    have hp := r.size_pos
    have hpf := f.size_pos
    have hpa := as.size_pos
    have hj : k + 1 + (Limbs.cons true f.shape as.limbs).size = k + 1 + 1 + f.size + as.size := by
      simp only [Limbs.size, Bool.toNat_true, Prog.size, Arms.size]; omega
    rw [Prog.shape, Shape.Fits, hj]
    have hparts : (Limbs.cons true f.shape as.limbs).parts (k + 1) = (k + 1, true, f.shape) ::
        as.limbs.parts (k + 1 + 1 + f.size) := rfl
    refine ⟨?_, ?_, ?_, Prog.fits hb r _ 0 last h5 hl⟩
    · rw [hb.succ h1, hparts, List.map_cons, Arms.starts_parts]
      · rfl
      · intro x hx
        simp only [Term.targets, List.mem_cons] at hx
        rcases hx with rfl | hx
        · omega
        · have := as.starts_lt _ x hx
          omega
    · rw [hparts, List.length_cons]
      cases as <;> simp [Arms.limbs, Limbs.parts]
    · refine ⟨fun _ => ?_, Prog.fits hb f _ _ _ h3 ?_, Arms.fits hb as _ _ h4 (by omega)⟩
      · rw [hb.succ h2, Arms.next]
        · rfl
        · simp only [Term.targets, List.mem_cons, List.not_mem_nil, or_false]
          omega
      · simp only [Term.targets, List.mem_singleton]
        omega
  | .whl _ _ _ _ _ c t r, k, n, last, hs, hl => by
    obtain ⟨h1, h2, h3, h4, h5, h6⟩ := slice_whl hs
    have hlt := slice_lt h6
    have hp := r.size_pos
    have hpt := t.size_pos
    rw [Prog.shape, Shape.Fits]
    refine ⟨?_, ?_, by simp, Prog.fits hb t _ 0 _ h5 ?_, Prog.fits hb r _ 1 last h6 hl⟩
    · intro i hi
      match i with
      | 0 =>
        show b.succ k = [k + 1]
        rw [hb.succ h1]
        · rfl
        · simp only [Term.targets, List.mem_singleton]
          omega
      | 1 =>
        show b.succ (k + 1) = [k + 2]
        rw [hb.succ h2]
        · rfl
        · simp only [Term.targets, List.mem_singleton]
          omega
      | i + 2 =>
        have := h3 i (by omega)
        rw [show k + (i + 2) = k + 2 + i by omega, hb.succ this]
        · rfl
        · simp only [Term.targets, List.mem_singleton]
          omega
    · rw [hb.succ h4]
      · rfl
      · simp only [Term.targets, List.mem_cons, List.not_mem_nil, or_false]
        omega
    · simp only [Term.targets, List.mem_singleton]
      omega
  | .frl _ _ _ _ _ _ _ nb t r, k, n, last, hs, hl => by
    obtain ⟨h1, h2, h3, h4, h5, h6, h7, h8⟩ := slice_frl hs
    have hlt := slice_lt h8
    have hp := r.size_pos
    have hpt := t.size_pos
    have hs : k + 1 + 3 + 1 + Bool.toNat true = k + 6 := rfl
    rw [Prog.shape, Shape.Fits, Shape.Fits, hs]
    refine ⟨?_, ?_, ?_, fun _ => ?_, Prog.fits hb t _ nb _ h7 ?_, Prog.fits hb r _ 1 last h8 hl⟩
    · rw [hb.succ h1]
      · rfl
      · simp only [Term.targets, List.mem_singleton]
        omega
    · intro i hi
      match i with
      | 0 =>
        show b.succ (k + 1) = [k + 2]
        rw [hb.succ h2]
        · rfl
        · simp only [Term.targets, List.mem_singleton]
          omega
      | 1 =>
        show b.succ (k + 2) = [k + 3]
        rw [hb.succ h3]
        · rfl
        · simp only [Term.targets, List.mem_singleton]
          omega
      | 2 =>
        show b.succ (k + 3) = [k + 4]
        rw [hb.succ h4]
        · rfl
        · simp only [Term.targets, List.mem_singleton]
          omega
      | i + 3 => omega
    · show b.succ (k + 4) = [k + 5, k + 6]
      rw [hb.succ h5]
      · rfl
      · simp only [Term.targets, List.mem_cons, List.not_mem_nil, or_false]
        omega
    · show b.succ (k + 5) = [k + 6 + t.size, k + 6]
      rw [hb.succ h6]
      · rfl
      · simp only [Term.targets, List.mem_cons, List.not_mem_nil, or_false]
        omega
    · simp only [Term.targets, List.mem_singleton]
      omega
theorem Arms.fits {b : Body} (hb : Fine b) : ∀ (as : Arms) (k j : Nat), Slice b k (as.code k j) → j < b.length →
    as.limbs.Fits b.succ k j
  | .last i f, k, j, hs, hj => by
    refine ⟨by simp, Prog.fits hb f _ _ _ (slice_last hs) ?_, trivial⟩
    simpa [Term.targets] using hj
  | .cons i f as, k, j, hs, hj => by
    obtain ⟨h1, h2, h3⟩ := slice_cons hs
    have hlt := slices_lt h3
    have hpa := as.size_pos
    have hpf := f.size_pos
    refine ⟨fun _ => ?_, Prog.fits hb f _ _ _ h2 ?_, Arms.fits hb as _ _ h3 hj⟩
    · rw [hb.succ h1, Arms.next]
      · rfl
      · simp only [Term.targets, List.mem_cons, List.not_mem_nil, or_false]
        omega
    · simpa [Term.targets] using hj
end

/-! ## The body -/

theorem body_slice (p : Prog) : Slice p.body 0 (p.code 0 0 .ret) := by
  intro i d h
  rw [Nat.zero_add]
  exact h

theorem body_length (p : Prog) : p.body.length = p.size := p.code_length 0 0 .ret

theorem body_good (p : Prog) {u : Nat} {d : Cfg.Block} (h : p.body[u]? = some d) : Good p.size .ret u d := by
  have := p.good 0 0 .ret (.inl rfl) u d h
  simpa using this

theorem body_fine (p : Prog) : Fine p.body where
  kept := by
    intro d hd
    obtain ⟨u, hu⟩ := List.mem_iff_getElem?.1 hd
    exact ⟨(body_good p hu).kept, (body_good p hu).reachable⟩
  imaginary := by
    intro t r i h
    cases hd : p.body[t]? with
    | none =>
      unfold Body.term at h
      rw [hd] at h
      simp at h
    | some d =>
      rw [term_of hd] at h
      exact (body_good p hd).imaginary r i h

theorem body_valid (p : Prog) : Valid p.body where
  targets := by
    rintro a t ⟨d, hd, ht⟩
    rw [body_length]
    rcases (body_good p hd).targets t ht with h | h
    · exact h
    · simp [Term.targets] at h
  cleanup := by
    intro a d t e hd hc
    rw [(body_good p hd).kept] at hc
    simp at hc
  nonempty := by rw [body_length]; exact p.size_pos

theorem body_fits (p : Prog) : p.shape.Fits p.body.succ 0 [] :=
  p.fits (body_fine p) 0 0 .ret (body_slice p) (by simp [Term.targets])

theorem body_place (p : Prog) : Place p.body.succ p.shape 0 [] := by
  refine .whole (body_fits p) fun u hu => ?_
  unfold Body.succ Body.rawSucc Body.term
  rw [List.getElem?_eq_none (by rw [body_length]; exact hu)]
  rfl

theorem body_returns (p : Prog) : p.body.returns = [p.size - 1] := by
  have hp := p.size_pos
  unfold Body.returns
  rw [body_length]
  refine filter_one (by omega) fun i hi => ?_
  have hd : p.body[i]? = some (p.body[i]'(by rw [body_length]; exact hi)) := List.getElem?_eq_getElem _
  rw [term_of hd, beq_iff_eq, (body_good p hd).ret]
  simp only [true_and]
  omega

theorem body_whole (p : Prog) : Whole p.body (p.size - 1) where
  valid := body_valid p
  returns := body_returns p
  stop := by
    have := Shape.last (body_fits p)
    rwa [Nat.zero_add] at this
  exits := by
    intro y hy
    have P := body_place p
    have hin : In 0 (0 + p.shape.size) y := by
      apply Classical.byContradiction
      intro hn
      exact absurd (P.region.avoid y hn hy) (by
        rintro ⟨l, hl, hu⟩
        exact hu 0 hl.head_mem ⟨Nat.le_refl _, by have := p.shape.pos; omega⟩)
    have := (P.region.ends y hin).reach
    rwa [Nat.zero_add] at this

end Verif.Walk
