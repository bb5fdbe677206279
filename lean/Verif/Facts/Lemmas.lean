import Verif.Facts.Spec
/-!
# Sorted relations and the semi-naive iteration
-/
namespace Verif.Facts
open Spec

theorem le3_trans (a b c : Nat × Nat × Nat) (h1 : le3 a b = true) (h2 : le3 b c = true) : le3 a c = true := by
  simp only [le3, Bool.or_eq_true, Bool.and_eq_true, decide_eq_true_eq] at *
  omega

theorem le3_total (a b : Nat × Nat × Nat) : (le3 a b || le3 b a) = true := by
  simp only [le3, Bool.or_eq_true, Bool.and_eq_true, decide_eq_true_eq]
  omega

theorem le2_trans (a b c : Nat × Nat) (h1 : le2 a b = true) (h2 : le2 b c = true) : le2 a c = true := by
  simp only [le2, Bool.or_eq_true, Bool.and_eq_true, decide_eq_true_eq] at *
  omega

theorem le2_total (a b : Nat × Nat) : (le2 a b || le2 b a) = true := by
  simp only [le2, Bool.or_eq_true, Bool.and_eq_true, decide_eq_true_eq]
  omega

theorem mem_dedup [DecidableEq α] {x : α} {l : List α} : x ∈ dedup l ↔ x ∈ l := by
  induction l with
  | nil => simp [dedup]
  | cons a l ih =>
    cases l with
    | nil => simp [dedup]
    | cons b l =>
      simp only [dedup]
      split
      · rename_i h; subst h; rw [ih]; simp
      · rw [List.mem_cons, ih]; simp

theorem dedup_sublist [DecidableEq α] (l : List α) : List.Sublist (dedup l) l := by
  induction l with
  | nil => simp [dedup]
  | cons a l ih =>
    cases l with
    | nil => simp [dedup]
    | cons b l =>
      simp only [dedup]
      split
      · exact ih.cons _
      · exact ih.cons_cons _

theorem mem_insertSorted {le : α → α → Bool} {x y : α} {l : List α} :
    y ∈ insertSorted le x l ↔ y = x ∨ y ∈ l := by
  induction l with
  | nil => simp [insertSorted]
  | cons a l ih =>
    simp only [insertSorted]
    split
    · simp
    · simp only [List.mem_cons, ih]; grind

theorem mem_sort {le : α → α → Bool} {y : α} {l : List α} : y ∈ sort le l ↔ y ∈ l := by
  induction l with
  | nil => simp [sort]
  | cons a l ih => simp [sort, mem_insertSorted, ih]

theorem sorted_sort {le : α → α → Bool} (ht : ∀ a b c, le a b = true → le b c = true → le a c = true)
    (hto : ∀ a b, (le a b || le b a) = true) (l : List α) :
    (sort le l).Pairwise (fun a b => le a b = true) := by
  have ins : ∀ (x : α) (l : List α), l.Pairwise (fun a b => le a b = true) →
      (insertSorted le x l).Pairwise (fun a b => le a b = true) := by
    intro x l
    induction l with
    | nil => intro _; simp [insertSorted]
    | cons a l ih =>
      intro h
      rw [List.pairwise_cons] at h
      simp only [insertSorted]
      split
      · rename_i hx
        rw [List.pairwise_cons]
        refine ⟨fun b hb => ?_, List.pairwise_cons.2 h⟩
        rcases List.mem_cons.1 hb with rfl | hb
        · exact hx
        · exact ht _ _ _ hx (h.1 b hb)
      · rename_i hx
        rw [List.pairwise_cons]
        refine ⟨fun b hb => ?_, ih h.2⟩
        rcases mem_insertSorted.1 hb with rfl | hb
        · have := hto b a
          simpa [hx] using this
        · exact h.1 b hb
  induction l with
  | nil => simp [sort]
  | cons a l ih => exact ins a _ ih

theorem mem_rel3 {x} {l} : x ∈ rel3 l ↔ x ∈ l := by
  unfold rel3; rw [mem_dedup, mem_sort]

theorem mem_rel2 {x} {l} : x ∈ rel2 l ↔ x ∈ l := by
  unfold rel2; rw [mem_dedup, mem_sort]

theorem sorted_rel3 (l) : (rel3 l).Pairwise (fun a b => le3 a b = true) :=
  (sorted_sort le3_trans le3_total l).sublist (dedup_sublist _)

theorem sorted_rel2 (l) : (rel2 l).Pairwise (fun a b => le2 a b = true) :=
  (sorted_sort le2_trans le2_total l).sublist (dedup_sublist _)

/-- A sorted list without equal neighbours has no duplicates. -/
theorem nodup_dedup2 {l : List (Nat × Nat)} (h : l.Pairwise (fun a b => le2 a b = true)) : (dedup l).Nodup := by
  induction l with
  | nil => simp [dedup]
  | cons a l ih =>
    cases l with
    | nil => simp [dedup]
    | cons b l =>
      simp only [dedup]
      have ih' := ih (List.Pairwise.of_cons h)
      split
      · exact ih'
      · rename_i hne
        rw [List.nodup_cons]
        refine ⟨fun hm => ?_, ih'⟩
        rw [mem_dedup] at hm
        rw [List.pairwise_cons] at h
        rcases List.mem_cons.1 hm with h1 | h1
        · exact hne h1
        · have h2 := h.1 b (by simp)
          have h3 := (List.pairwise_cons.1 h.2).1 a h1
          simp only [le2, Bool.or_eq_true, Bool.and_eq_true, decide_eq_true_eq] at h2 h3
          exact hne (Prod.ext (by omega) (by omega))

theorem nodup_rel2 (l) : (rel2 l).Nodup := nodup_dedup2 (sorted_sort le2_trans le2_total l)

theorem mem_join {r₁ r₂ : List (Nat × Nat)} {logic : Nat → Nat → Nat → γ} {x : γ} :
    x ∈ join r₁ r₂ logic ↔ ∃ k v w, (k, v) ∈ r₁ ∧ (k, w) ∈ r₂ ∧ x = logic k v w := by
  unfold join
  simp only [List.mem_flatMap, List.mem_map, List.mem_filter, beq_iff_eq, Prod.exists]
  constructor
  · rintro ⟨k, v, h1, k', w, ⟨h2, rfl⟩, rfl⟩; exact ⟨_, v, w, h1, h2, rfl⟩
  · rintro ⟨k, v, w, h1, h2, rfl⟩; exact ⟨k, v, h1, k, w, ⟨h2, rfl⟩, rfl⟩

/-- The map built from sorted facts holds the largest key. -/
theorem insertFacts_spec {l : List (Nat × Nat × Nat)} (hs : l.Pairwise (fun a b => le3 a b = true))
    (m : Nat → Nat → Option Nat)
    (hm : ∀ point path k, m point path = some k → ∀ k', (path, k', point) ∈ l → k ≤ k')
    (point path : Nat) :
    (insertFacts l m point path = none ↔ m point path = none ∧ ∀ k, (path, k, point) ∉ l) ∧
    ∀ k, insertFacts l m point path = some k →
      (m point path = some k ∨ (path, k, point) ∈ l) ∧ (∀ k', (path, k', point) ∈ l → k' ≤ k) := by
  induction l generalizing m with
  | nil => simp [insertFacts]
  | cons x l ih =>
    obtain ⟨pa, ke, po⟩ := x
    rw [List.pairwise_cons] at hs
    simp only [insertFacts]
    have hm' : ∀ point path k, (fun pt p => if pt = po ∧ p = pa then some ke else m pt p) point path = some k →
        ∀ k', (path, k', point) ∈ l → k ≤ k' := by
      intro pt p k h k' hk'
      simp only at h
      split at h
      · rename_i hc
        obtain ⟨rfl, rfl⟩ := hc
        simp only [Option.some.injEq] at h
        subst h
        have := hs.1 _ hk'
        simp only [le3, Bool.or_eq_true, Bool.and_eq_true, decide_eq_true_eq] at this
        omega
      · exact hm pt p k h k' (by simp [hk'])
    obtain ⟨h1, h2⟩ := ih hs.2 _ hm'
    constructor
    · rw [h1]
      by_cases hc : point = po ∧ path = pa
      · obtain ⟨rfl, rfl⟩ := hc
        simp only [and_self, if_true, reduceCtorEq, false_and, false_iff, not_and]
        intro _ h
        exact h ke (by simp)
      · rw [if_neg hc]
        apply and_congr_right
        intro _
        constructor
        · intro h k hk
          rcases List.mem_cons.1 hk with hk | hk
          · simp only [Prod.mk.injEq] at hk; exact hc ⟨hk.2.2, hk.1⟩
          · exact h k hk
        · intro h k hk; exact h k (by simp [hk])
    · intro k hk
      obtain ⟨h3, h4⟩ := h2 k hk
      by_cases hc : point = po ∧ path = pa
      · obtain ⟨rfl, rfl⟩ := hc
        simp only [and_self, if_true, Option.some.injEq] at h3
        refine ⟨.inr ?_, ?_⟩
        · rcases h3 with rfl | h3 <;> simp [*]
        · intro k' hk'
          rcases List.mem_cons.1 hk' with hk' | hk'
          · simp only [Prod.mk.injEq] at hk'
            obtain ⟨-, rfl, -⟩ := hk'
            rcases h3 with rfl | h3
            · exact Nat.le_refl _
            · have := hs.1 _ h3
              simp only [le3, Bool.or_eq_true, Bool.and_eq_true, decide_eq_true_eq] at this
              omega
          · exact h4 k' hk'
      · rw [if_neg hc] at h3
        refine ⟨?_, ?_⟩
        · rcases h3 with h3 | h3
          · exact .inl h3
          · exact .inr (by simp [h3])
        · intro k' hk'
          rcases List.mem_cons.1 hk' with hk' | hk'
          · simp only [Prod.mk.injEq] at hk'
            exact absurd ⟨hk'.2.2, hk'.1⟩ hc
          · exact h4 k' hk'

/-- Starting from the empty map. -/
theorem insertFacts_max {l : List (Nat × Nat × Nat)} {point path : Nat} :
    (insertFacts (rel3 l) (fun _ _ => none) point path = none ↔ ∀ k, (path, k, point) ∉ l) ∧
    ∀ k, insertFacts (rel3 l) (fun _ _ => none) point path = some k ↔
      IsMax (fun k => (path, k, point) ∈ l) k := by
  obtain ⟨h1, h2⟩ := insertFacts_spec (sorted_rel3 l) (fun _ _ => none) (by simp) point path
  simp only [mem_rel3, true_and, reduceCtorEq, false_or] at h1 h2
  refine ⟨h1, fun k => ⟨h2 k, fun hk => ?_⟩⟩
  cases hf : insertFacts (rel3 l) (fun _ _ => none) point path with
  | none => exact absurd hk.1 (h1.1 hf k)
  | some k' =>
    obtain ⟨h3, h4⟩ := h2 k' hf
    rw [Nat.le_antisymm (h4 k hk.1) (hk.2 k' h3)]

/-! ## Iteration -/

/-- The least set containing `init` and closed under the rule. -/
inductive Closure (f : α → List α) (init : List α) : α → Prop
  | base {x} : x ∈ init → Closure f init x
  | step {x y} : Closure f init x → y ∈ f x → Closure f init y

section
variable {α β : Type} [DecidableEq α] [DecidableEq β]

/-- State of a variable at the head of the loop. -/
structure Inv (f : α → List α) (init : List α) (v : Var α) : Prop where
  sound : ∀ x, x ∈ v.stable ∨ x ∈ v.recent ∨ x ∈ v.toAdd → Closure f init x
  init : ∀ x ∈ init, x ∈ v.stable ∨ x ∈ v.recent ∨ x ∈ v.toAdd
  closed : ∀ x, x ∈ v.stable ∨ x ∈ v.recent → ∀ y ∈ f x, y ∈ v.stable ∨ y ∈ v.recent ∨ y ∈ v.toAdd

theorem Inv.start (f : α → List α) (init : List α) : Inv f init ⟨[], [], init⟩ :=
  ⟨by intro x h; simp at h; exact .base h, by simp, by simp⟩

theorem Inv.next {f : α → List α} {init : List α} {v : Var α} (h : Inv f init v) :
    Inv f init (v.changed.1.derive f) := by
  have key : ∀ x, (x ∈ v.stable ∨ x ∈ v.recent ∨ x ∈ v.toAdd) ↔
      (x ∈ (v.changed.1.derive f).stable ∨ x ∈ (v.changed.1.derive f).recent) := by
    intro x
    simp only [Var.changed, Var.derive, List.mem_append, List.mem_filter, decide_eq_true_eq]
    by_cases hx : x ∈ v.stable ∨ x ∈ v.recent <;> grind
  refine ⟨?_, ?_, ?_⟩
  · intro x hx
    rw [← or_assoc, ← key] at hx
    rcases hx with hx | hx
    · exact h.sound x hx
    · simp only [Var.changed, Var.derive, List.nil_append, List.mem_flatMap] at hx
      obtain ⟨y, hy, hxy⟩ := hx
      simp only [List.mem_filter] at hy
      exact .step (h.sound y (.inr (.inr hy.1))) hxy
  · intro x hx
    have := (key x).1 (h.init x hx)
    grind
  · intro x hx y hy
    by_cases hr : x ∈ (v.changed.1.derive f).recent
    · right; right
      simp only [Var.changed, Var.derive, List.nil_append, List.mem_flatMap] at hr ⊢
      exact ⟨x, hr, hy⟩
    · have hst : x ∈ (v.changed.1.derive f).stable := hx.resolve_right hr
      simp only [Var.changed, Var.derive, List.mem_append] at hst
      have := (key y).1 (h.closed x hst y hy)
      grind

theorem Inv.done {f : α → List α} {init : List α} {v : Var α} (h : Inv f init v)
    (hc : v.changed.2 = false) : ∀ x, x ∈ v.changed.1.stable ↔ Closure f init x := by
  have hsub : ∀ x, x ∈ v.stable ∨ x ∈ v.recent ∨ x ∈ v.toAdd → x ∈ v.changed.1.stable := by
    intro x hx
    simp only [Var.changed, Bool.not_eq_false', List.isEmpty_iff, List.filter_eq_nil_iff,
      decide_eq_true_eq, List.mem_append] at hc
    simp only [Var.changed, List.mem_append]
    rcases hx with hx | hx | hx
    · exact .inl hx
    · exact .inr hx
    · exact Classical.byContradiction (hc x hx)
  intro x
  constructor
  · intro hx
    simp only [Var.changed, List.mem_append] at hx
    exact h.sound x (by grind)
  · intro hx
    induction hx with
    | base hb => exact hsub _ (h.init _ hb)
    | step _ hy ih =>
      simp only [Var.changed, List.mem_append] at ih
      exact hsub _ (h.closed _ ih _ hy)

theorem iterate_correct {f : α → List α} {g : β → List β} {i₁ : List α} {i₂ : List β} {fuel : Nat}
    {v : Var α} {w : Var β} (hv : Inv f i₁ v) (hw : Inv g i₂ w) {r₁ r₂}
    (h : iterate f g fuel v w = some (r₁, r₂)) :
    (∀ x, x ∈ r₁ ↔ Closure f i₁ x) ∧ ∀ x, x ∈ r₂ ↔ Closure g i₂ x := by
  induction fuel generalizing v w with
  | zero => simp [iterate] at h
  | succ fuel ih =>
    simp only [iterate] at h
    split at h
    · exact ih hv.next hw.next h
    · rename_i hc
      simp only [Bool.not_eq_true, Bool.or_eq_false_iff] at hc
      simp only [Option.some.injEq, Prod.mk.injEq] at h
      obtain ⟨rfl, rfl⟩ := h
      exact ⟨hv.done hc.1, hw.done hc.2⟩

/-- Elements of a universe not yet seen. -/
def unseen (U : List α) (v : Var α) : Nat := (U.filter (fun x => decide (x ∉ v.stable ++ v.recent))).length

theorem unseen_next {U : List α} {v : Var α} {f : α → List α} (hU : ∀ x ∈ v.toAdd, x ∈ U) :
    unseen U (v.changed.1.derive f) ≤ unseen U v ∧
    (v.changed.2 = true → unseen U (v.changed.1.derive f) < unseen U v) := by
  have hsub : ∀ (l : List α) (p q : α → Bool), (∀ x, q x = true → p x = true) →
      (l.filter q).length ≤ (l.filter p).length ∧
      ((∃ x ∈ l, p x = true ∧ q x = false) → (l.filter q).length < (l.filter p).length) := by
    intro l p q hpq
    induction l with
    | nil => simp
    | cons a l ih =>
      have := hpq a
      cases hp : p a <;> cases hq : q a
      · refine ⟨by simpa [hp, hq] using ih.1, ?_⟩
        rintro ⟨x, hx, h1, h2⟩
        rcases List.mem_cons.1 hx with rfl | hx
        · rw [hp] at h1; cases h1
        · simpa [hp, hq] using ih.2 ⟨x, hx, h1, h2⟩
      · rw [this hq] at hp; cases hp
      · refine ⟨by simpa [hp, hq] using Nat.le_succ_of_le ih.1, ?_⟩
        intro _
        simpa [hp, hq] using Nat.lt_succ_of_le ih.1
      · refine ⟨by simpa [hp, hq] using ih.1, ?_⟩
        rintro ⟨x, hx, h1, h2⟩
        rcases List.mem_cons.1 hx with rfl | hx
        · rw [hq] at h2; cases h2
        · simpa [hp, hq] using ih.2 ⟨x, hx, h1, h2⟩
  have h := hsub U (fun x => decide (x ∉ v.stable ++ v.recent))
    (fun x => decide (x ∉ (v.changed.1.derive f).stable ++ (v.changed.1.derive f).recent)) (by
      intro x hx
      simp only [decide_eq_true_eq, Var.changed, Var.derive, List.mem_append] at hx ⊢
      grind)
  refine ⟨h.1, fun hc => h.2 ?_⟩
  simp only [Var.changed, Bool.not_eq_true', List.isEmpty_eq_false_iff] at hc
  obtain ⟨x, hx⟩ := List.exists_mem_of_ne_nil _ hc
  simp only [List.mem_filter, decide_eq_true_eq] at hx
  refine ⟨x, hU x hx.1, by simpa using hx.2, ?_⟩
  simp only [Var.changed, Var.derive, decide_eq_false_iff_not, List.mem_append, List.mem_filter,
    decide_eq_true_eq]
  grind

theorem iterate_ends {f : α → List α} {g : β → List β} {i₁ : List α} {i₂ : List β} {U₁ : List α} {U₂ : List β}
    (h₁ : ∀ x, Closure f i₁ x → x ∈ U₁) (h₂ : ∀ x, Closure g i₂ x → x ∈ U₂)
    {v : Var α} {w : Var β} (hv : Inv f i₁ v) (hw : Inv g i₂ w) :
    ∃ fuel r, iterate f g fuel v w = some r := by
  have : ∀ n v w, Inv f i₁ v → Inv g i₂ w → unseen U₁ v + unseen U₂ w < n →
      ∃ fuel r, iterate f g fuel v w = some r := by
    intro n
    induction n with
    | zero => intro v w _ _ h; omega
    | succ n ih =>
      intro v w hv hw hn
      have a := unseen_next (U := U₁) (f := f) (v := v) (fun x hx => h₁ x (hv.sound x (.inr (.inr hx))))
      have b := unseen_next (U := U₂) (f := g) (v := w) (fun x hx => h₂ x (hw.sound x (.inr (.inr hx))))
      by_cases hc : (v.changed.2 || w.changed.2) = true
      · have hlt : unseen U₁ (v.changed.1.derive f) + unseen U₂ (w.changed.1.derive g) < n := by
          rcases Bool.or_eq_true _ _ ▸ hc with hc | hc
          · have := a.2 hc; omega
          · have := b.2 hc; omega
        obtain ⟨fuel, r, hr⟩ := ih _ _ hv.next hw.next hlt
        exact ⟨fuel + 1, r, by simp only [iterate, hc, if_true]; exact hr⟩
      · exact ⟨1, (v.changed.1.stable, w.changed.1.stable), by simp only [iterate, if_neg hc]⟩
  exact this _ v w hv hw (Nat.lt_succ_self _)
end

end Verif.Facts
