import Verif.Walk.Props
/-!
# C108: where the ways through a program come together again
-/
namespace Verif.Walk

open Verif.Cfg Verif.Segments Verif.HirSteps
open Verif.HirSteps.Prog (Slice Slice.left Slice.right Slice.tail)

mutual
/-- Where the end of an arm or of the body of a loop leads: from the assignment of the unit value to where the arms come
together, and back to the start of a `while` loop or to the call of `next` of a `for` loop. -/
def Prog.merges : Prog → Nat → Nat → List (Loc × Loc)
  | .fin, _, _ => []
  | .act _ r, k, n => r.merges k (n + 1)
  | .bind _ _ r, k, n => r.merges k (n + 1)
  | .call _ r, k, _ => r.merges (k + 1) 0
  | .ite _ _ _ _ t e r, k, _ =>
    (t.finAt (k + 1 + e.size) 0, ⟨k + 1 + e.size + t.size, 0⟩) ::
      (e.finAt (k + 1) 0, ⟨k + 1 + e.size + t.size, 0⟩) ::
      (t.merges (k + 1 + e.size) 0 ++ (e.merges (k + 1) 0 ++ r.merges (k + 1 + e.size + t.size) 0))
  | .only _ _ _ t r, k, _ =>
    (⟨k + 1, 0⟩, ⟨k + 1 + 1 + t.size, 0⟩) :: (t.finAt (k + 1 + 1) 0, ⟨k + 1 + 1 + t.size, 0⟩) ::
      (t.merges (k + 1 + 1) 0 ++ r.merges (k + 1 + 1 + t.size) 0)
  | .mtch _ _ i f as r, k, _ =>
    (f.finAt (k + 1 + 1) i.nb, ⟨k + 1 + 1 + f.size + as.size, 0⟩) ::
      (f.merges (k + 1 + 1) i.nb ++ (as.merges (k + 1 + 1 + f.size) (k + 1 + 1 + f.size + as.size) ++
        r.merges (k + 1 + 1 + f.size + as.size) 0))
  | .whl _ _ _ _ _ c t r, k, n =>
    (t.finAt (k + 3 + c) 0, ⟨k, n⟩) :: (t.merges (k + 3 + c) 0 ++ r.merges (k + 3 + c + t.size) 1)
  | .frl _ _ _ _ _ _ _ nb t r, k, _ =>
    (t.finAt (k + 6) nb, ⟨k + 3, 0⟩) :: (t.merges (k + 6) nb ++ r.merges (k + 6 + t.size) 1)
def Arms.merges : Arms → Nat → Nat → List (Loc × Loc)
  | .last i f, k, j => (f.finAt k i.nb, ⟨j, 0⟩) :: f.merges k i.nb
  | .cons i f as, k, j => (f.finAt (k + 1) i.nb, ⟨j, 0⟩) ::
      (f.merges (k + 1) i.nb ++ as.merges (k + 1 + f.size) j)
end

theorem fin_block {b : Body} : ∀ (p : Prog) (k n : Nat) (last : Term), Slice b k (p.code k n last) →
    b[(p.finAt k n).block]? = some ⟨(p.finAt k n).idx + 1, last, false⟩
  | .fin, k, n, last, h => (Slice.tail h).1
  | .act _ r, k, n, last, h => fin_block r k (n + 1) last h
  | .bind _ _ r, k, n, last, h => fin_block r k (n + 1) last h
  | .call _ r, k, n, last, h => fin_block r (k + 1) 0 last (Slice.tail h).2
  | .ite _ _ _ _ t e r, k, n, last, h => fin_block r _ 0 last (slice_ite h).2.2.2
  | .only _ _ _ t r, k, n, last, h => fin_block r _ 0 last (slice_only h).2.2.2
  | .mtch _ _ _ f as r, k, n, last, h => fin_block r _ 0 last (slice_mtch h).2.2.2.2
  | .whl _ _ _ _ _ c t r, k, n, last, h => fin_block r _ 1 last (slice_whl h).2.2.2.2.2
  | .frl _ _ _ _ _ _ _ _ t r, k, n, last, h => fin_block r _ 1 last (slice_frl h).2.2.2.2.2.2.2

/-- The first location is the last statement of a block that jumps to a block; the second one is the start of this
block, a jump to the same block, or where the loop whose head this block is goes on. -/
def Meets (b : Body) (m : Loc × Loc) : Prop :=
  ∃ j, b[m.1.block]? = some ⟨m.1.idx + 1, .goto j, false⟩ ∧
    (m.2 = ⟨j, 0⟩ ∨ b[m.2.block]? = some ⟨m.2.idx, .goto j, false⟩ ∨
      (b[j]? = some ⟨0, .falseUnwind m.2.block, false⟩ ∧ m.2.idx = 0))

mutual
theorem Prog.merges_meet {b : Body} : ∀ (p : Prog) (k n : Nat) (last : Term), Slice b k (p.code k n last) →
    ∀ m ∈ p.merges k n, Meets b m
  | .fin, _, _, _, _, m, hm => by simp [Prog.merges] at hm
  | .act _ r, k, n, last, h, m, hm => Prog.merges_meet r k (n + 1) last h m hm
  | .bind _ _ r, k, n, last, h, m, hm => Prog.merges_meet r k (n + 1) last h m hm
  | .call _ r, k, n, last, h, m, hm => Prog.merges_meet r (k + 1) 0 last (Slice.tail h).2 m hm
  | .ite _ _ _ _ t e r, k, n, last, h, m, hm => by
    obtain ⟨_, h2, h3, h4⟩ := slice_ite h
    simp only [Prog.merges, List.mem_cons, List.mem_append] at hm
    rcases hm with rfl | rfl | hm | hm | hm
    · exact ⟨_, fin_block t _ _ _ h3, .inl rfl⟩
    · exact ⟨_, fin_block e _ _ _ h2, .inl rfl⟩
    · exact Prog.merges_meet t _ _ _ h3 m hm
    · exact Prog.merges_meet e _ _ _ h2 m hm
    · exact Prog.merges_meet r _ _ _ h4 m hm
  | .only _ _ _ t r, k, n, last, h, m, hm => by
    obtain ⟨_, h2, h3, h4⟩ := slice_only h
    simp only [Prog.merges, List.mem_cons, List.mem_append] at hm
    rcases hm with rfl | rfl | hm | hm
    · exact ⟨_, h2, .inl rfl⟩
    · exact ⟨_, fin_block t _ _ _ h3, .inl rfl⟩
    · exact Prog.merges_meet t _ _ _ h3 m hm
    · exact Prog.merges_meet r _ _ _ h4 m hm
  | .mtch _ _ i f as r, k, n, last, h, m, hm => by
    obtain ⟨_, _, h3, h4, h5⟩ := slice_mtch h
    simp only [Prog.merges, List.mem_cons, List.mem_append] at hm
    rcases hm with rfl | hm | hm | hm
    · exact ⟨_, fin_block f _ _ _ h3, .inl rfl⟩
    · exact Prog.merges_meet f _ _ _ h3 m hm
    · exact Arms.merges_meet as _ _ h4 m hm
    · exact Prog.merges_meet r _ _ _ h5 m hm
  | .whl _ _ _ _ _ c t r, k, n, last, h, m, hm => by
    obtain ⟨h1, _, _, _, h5, h6⟩ := slice_whl h
    simp only [Prog.merges, List.mem_cons, List.mem_append] at hm
    rcases hm with rfl | hm | hm
    · exact ⟨_, fin_block t _ _ _ h5, .inr (.inl h1)⟩
    · exact Prog.merges_meet t _ _ _ h5 m hm
    · exact Prog.merges_meet r _ _ _ h6 m hm
  | .frl _ _ _ _ _ _ _ nb t r, k, n, last, h, m, hm => by
    obtain ⟨_, _, h3, _, _, _, h5, h6⟩ := slice_frl h
    simp only [Prog.merges, List.mem_cons, List.mem_append] at hm
    rcases hm with rfl | hm | hm
    · exact ⟨_, fin_block t _ _ _ h5, .inr (.inr ⟨h3, rfl⟩)⟩
    · exact Prog.merges_meet t _ _ _ h5 m hm
    · exact Prog.merges_meet r _ _ _ h6 m hm
theorem Arms.merges_meet {b : Body} : ∀ (as : Arms) (k j : Nat), Slice b k (as.code k j) →
    ∀ m ∈ as.merges k j, Meets b m
  | .last i f, k, j, h, m, hm => by
    simp only [Arms.merges, List.mem_cons] at hm
    rw [Arms.code] at h
    rcases hm with rfl | hm
    · exact ⟨_, fin_block f _ _ _ h, .inl rfl⟩
    · exact Prog.merges_meet f _ _ _ h m hm
  | .cons i f as, k, j, h, m, hm => by
    simp only [Arms.merges, List.mem_cons, List.mem_append] at hm
    rw [Arms.code] at h
    obtain ⟨_, h⟩ := Slice.tail h
    have h2 := h.right
    rw [Prog.code_length] at h2
    rcases hm with rfl | hm | hm
    · exact ⟨_, fin_block f _ _ _ h.left, .inl rfl⟩
    · exact Prog.merges_meet f _ _ _ h.left m hm
    · exact Arms.merges_meet as _ _ h2 m hm
end

mutual
/-- Every step begins at the start, where another step ends, or where the end of an arm leads. -/
theorem Prog.expected_reached (w : List Step) (ms : List (Loc × Loc)) (ok : Loc → Prop)
    (h1 : ∀ x ∈ ms, ok x.1 → ok x.2) (h2 : ∀ x ∈ w, ok x.1 → ok x.2.1) : ∀ (p : Prog) (k n : Nat),
    (∀ x ∈ p.expected k n, x ∈ w) → (∀ x ∈ p.merges k n, x ∈ ms) → ok ⟨k, n⟩ →
    (∀ x ∈ p.expected k n, ok x.1) ∧ ok (p.finAt k n)
  | .fin, _, _, _, _, h => ⟨by simp [Prog.expected], h⟩
  | .act sp r, k, n, hw, hj, h => by
    have hn : ok ⟨k, n + 1⟩ := h2 _ (hw _ List.mem_cons_self) h
    obtain ⟨a, b⟩ := Prog.expected_reached w ms ok h1 h2 r k (n + 1) (fun x hx => hw x (List.mem_cons_of_mem _ hx)) hj hn
    refine ⟨fun x hx => ?_, b⟩
    rcases List.mem_cons.1 hx with rfl | hx
    · exact h
    · exact a x hx
  | .bind sp vs r, k, n, hw, hj, h => by
    have hn : ok ⟨k, n + 1⟩ := h2 _ (hw _ List.mem_cons_self) h
    obtain ⟨a, b⟩ := Prog.expected_reached w ms ok h1 h2 r k (n + 1) (fun x hx => hw x (List.mem_cons_of_mem _ hx)) hj hn
    refine ⟨fun x hx => ?_, b⟩
    rcases List.mem_cons.1 hx with rfl | hx
    · exact h
    · exact a x hx
  | .call sp r, k, n, hw, hj, h => by
    have hn : ok ⟨k + 1, 0⟩ := h2 _ (hw _ List.mem_cons_self) h
    obtain ⟨a, b⟩ := Prog.expected_reached w ms ok h1 h2 r (k + 1) 0 (fun x hx => hw x (List.mem_cons_of_mem _ hx)) hj hn
    refine ⟨fun x hx => ?_, b⟩
    rcases List.mem_cons.1 hx with rfl | hx
    · exact h
    · exact a x hx
  | .ite sp lt le hi t e r, k, n, hw, hj, h => by
    simp only [Prog.expected, Prog.merges, List.mem_cons, List.mem_append] at hw hj ⊢
    have hn : ok ⟨k, n + 1⟩ := h2 _ (hw _ (.inl rfl)) h
    have he : ok ⟨k + 1, 0⟩ := h2 _ (hw _ (.inr (.inl rfl))) hn
    have ht : ok ⟨k + 1 + e.size, 0⟩ := h2 _ (hw _ (.inr (.inr (.inl rfl)))) hn
    obtain ⟨a1, a2⟩ := Prog.expected_reached w ms ok h1 h2 t _ _ (fun x hx => hw x (.inr (.inr (.inr (.inl hx)))))
      (fun x hx => hj x (.inr (.inr (.inl hx)))) ht
    obtain ⟨b1, _⟩ := Prog.expected_reached w ms ok h1 h2 e _ _ (fun x hx => hw x (.inr (.inr (.inr (.inr (.inl hx))))))
      (fun x hx => hj x (.inr (.inr (.inr (.inl hx))))) he
    have hr : ok ⟨k + 1 + e.size + t.size, 0⟩ := h1 _ (hj _ (.inl rfl)) a2
    obtain ⟨c1, c2⟩ := Prog.expected_reached w ms ok h1 h2 r _ _ (fun x hx => hw x (.inr (.inr (.inr (.inr (.inr hx))))))
      (fun x hx => hj x (.inr (.inr (.inr (.inr hx))))) hr
    refine ⟨?_, c2⟩
    rintro x (rfl | rfl | rfl | hx | hx | hx)
    · exact h
    · exact hn
    · exact hn
    · exact a1 x hx
    · exact b1 x hx
    · exact c1 x hx
  | .only sp lt hi t r, k, n, hw, hj, h => by
    simp only [Prog.expected, Prog.merges, List.mem_cons, List.mem_append] at hw hj ⊢
    have hn : ok ⟨k, n + 1⟩ := h2 _ (hw _ (.inl rfl)) h
    have he : ok ⟨k + 1, 0⟩ := h2 _ (hw _ (.inr (.inl rfl))) hn
    have ht : ok ⟨k + 1 + 1, 0⟩ := h2 _ (hw _ (.inr (.inr (.inl rfl)))) hn
    have hr : ok ⟨k + 1 + 1 + t.size, 0⟩ := h1 _ (hj _ (.inl rfl)) he
    obtain ⟨a1, _⟩ := Prog.expected_reached w ms ok h1 h2 t _ _ (fun x hx => hw x (.inr (.inr (.inr (.inl hx)))))
      (fun x hx => hj x (.inr (.inr (.inl hx)))) ht
    obtain ⟨c1, c2⟩ := Prog.expected_reached w ms ok h1 h2 r _ _ (fun x hx => hw x (.inr (.inr (.inr (.inr hx)))))
      (fun x hx => hj x (.inr (.inr (.inr hx)))) hr
    refine ⟨?_, c2⟩
    rintro x (rfl | rfl | rfl | hx | hx)
    · exact h
    · exact hn
    · exact hn
    · exact a1 x hx
    · exact c1 x hx
  | .mtch sp ds i f as r, k, n, hw, hj, h => by
    simp only [Prog.expected, Prog.merges, List.mem_cons, List.mem_append, List.map_cons] at hw hj ⊢
    have hn : ok ⟨k, n + 1⟩ := h2 _ (hw _ (.inl rfl)) h
    have hf : ok ⟨k + 1 + 1, i.nb⟩ := h2 _ (hw _ (.inr (.inl (.inl rfl)))) hn
    obtain ⟨a1, a2⟩ := Prog.expected_reached w ms ok h1 h2 f _ _
      (fun x hx => hw x (.inr (.inr (.inl (.inr hx))))) (fun x hx => hj x (.inr (.inl hx))) hf
    have hr : ok ⟨k + 1 + 1 + f.size + as.size, 0⟩ := h1 _ (hj _ (.inl rfl)) a2
    have b1 := Arms.expected_reached w ms ok h1 h2 as _ _ k (n + 1)
      (fun x hx => hw x (.inr (.inl (.inr hx)))) (fun x hx => hw x (.inr (.inr (.inr (.inl hx)))))
      (fun x hx => hj x (.inr (.inr (.inl hx)))) hn
    obtain ⟨c1, c2⟩ := Prog.expected_reached w ms ok h1 h2 r _ _ (fun x hx => hw x (.inr (.inr (.inr (.inr hx)))))
      (fun x hx => hj x (.inr (.inr (.inr hx)))) hr
    refine ⟨?_, c2⟩
    rintro x (rfl | (rfl | hx) | (rfl | hx) | hx | hx)
    · exact h
    · exact hn
    · obtain ⟨y, _, rfl⟩ := List.mem_map.1 hx
      exact hn
    · exact hf
    · exact a1 x hx
    · exact b1 x hx
    · exact c1 x hx
  | .whl sp sc lt hi sb c t r, k, n, hw, hj, h => by
    simp only [Prog.expected, Prog.merges, List.mem_cons, List.mem_append] at hw hj ⊢
    have hc : ok ⟨k + 2 + c, 1⟩ := h2 _ (hw _ (.inl rfl)) h
    have hx0 : ok ⟨k + 3 + c + t.size, 0⟩ := h2 _ (hw _ (.inr (.inl rfl))) hc
    have ht : ok ⟨k + 3 + c, 0⟩ := h2 _ (hw _ (.inr (.inr (.inl rfl)))) hc
    have hr : ok ⟨k + 3 + c + t.size, 1⟩ := h2 _ (hw _ (.inr (.inr (.inr (.inr (.inr (.inl rfl))))))) hx0
    obtain ⟨a1, _⟩ := Prog.expected_reached w ms ok h1 h2 t _ _ (fun x hx => hw x (.inr (.inr (.inr (.inl hx)))))
      (fun x hx => hj x (.inr (.inl hx))) ht
    obtain ⟨c1, c2⟩ := Prog.expected_reached w ms ok h1 h2 r _ _
      (fun x hx => hw x (.inr (.inr (.inr (.inr (.inr (.inr hx))))))) (fun x hx => hj x (.inr (.inr hx))) hr
    refine ⟨?_, c2⟩
    rintro x (rfl | rfl | rfl | hx | rfl | rfl | hx)
    · exact h
    · exact hc
    · exact hc
    · exact a1 x hx
    · exact hx0
    · exact hx0
    · exact c1 x hx
  | .frl sp sa sc hi sn lb li nb t r, k, n, hw, hj, h => by
    simp only [Prog.expected, Prog.merges, List.mem_cons, List.mem_append] at hw hj ⊢
    have hc : ok ⟨k + 3, 0⟩ := h2 _ (hw _ (.inl rfl)) h
    have hd : ok ⟨k + 4, 0⟩ := h2 _ (hw _ (.inr (.inl rfl))) hc
    have hx0 : ok ⟨k + 6 + t.size, 0⟩ := h2 _ (hw _ (.inr (.inr (.inl rfl)))) hd
    have ht : ok ⟨k + 6, nb⟩ := h2 _ (hw _ (.inr (.inr (.inr (.inl rfl))))) hd
    have hr : ok ⟨k + 6 + t.size, 1⟩ := h2 _ (hw _ (.inr (.inr (.inr (.inr (.inr (.inr (.inr (.inl rfl))))))))) hx0
    obtain ⟨a1, _⟩ := Prog.expected_reached w ms ok h1 h2 t _ _
      (fun x hx => hw x (.inr (.inr (.inr (.inr (.inr (.inr (.inl hx)))))))) (fun x hx => hj x (.inr (.inl hx))) ht
    obtain ⟨c1, c2⟩ := Prog.expected_reached w ms ok h1 h2 r _ _
      (fun x hx => hw x (.inr (.inr (.inr (.inr (.inr (.inr (.inr (.inr hx))))))))) (fun x hx => hj x (.inr (.inr hx))) hr
    refine ⟨?_, c2⟩
    rintro x (rfl | rfl | rfl | rfl | rfl | rfl | hx | rfl | hx)
    · exact h
    · exact hc
    · exact hd
    · exact hd
    · exact hx0
    · exact ht
    · exact a1 x hx
    · exact hx0
    · exact c1 x hx
theorem Arms.expected_reached (w : List Step) (ms : List (Loc × Loc)) (ok : Loc → Prop)
    (h1 : ∀ x ∈ ms, ok x.1 → ok x.2) (h2 : ∀ x ∈ w, ok x.1 → ok x.2.1) : ∀ (as : Arms) (k j a n : Nat),
    (∀ x ∈ (as.entries k).map (fun e => ((⟨a, n⟩, e.1, e.2) : Step)), x ∈ w) → (∀ x ∈ (as.expected k).flatten, x ∈ w) →
    (∀ x ∈ as.merges k j, x ∈ ms) → ok ⟨a, n⟩ → ∀ x ∈ (as.expected k).flatten, ok x.1
  | .last i f, k, j, a, n, he, hw, hj, h => by
    simp only [Arms.entries, Arms.expected, Arms.merges, List.map_cons, List.map_nil, List.flatten_cons, List.flatten_nil,
      List.append_nil, List.mem_cons, List.not_mem_nil, or_false] at he hw hj ⊢
    have hf : ok ⟨k, i.nb⟩ := h2 _ (he _ rfl) h
    obtain ⟨a1, _⟩ := Prog.expected_reached w ms ok h1 h2 f _ _ (fun x hx => hw x (.inr hx))
      (fun x hx => hj x (.inr hx)) hf
    rintro x (rfl | hx)
    · exact hf
    · exact a1 x hx
  | .cons i f as, k, j, a, n, he, hw, hj, h => by
    simp only [Arms.entries, Arms.expected, Arms.merges, List.map_cons, List.flatten_cons, List.cons_append,
      List.mem_cons, List.mem_append] at he hw hj ⊢
    have hf : ok ⟨k + 1, i.nb⟩ := h2 _ (he _ (.inl rfl)) h
    obtain ⟨a1, _⟩ := Prog.expected_reached w ms ok h1 h2 f _ _ (fun x hx => hw x (.inr (.inl hx)))
      (fun x hx => hj x (.inr (.inl hx))) hf
    have b1 := Arms.expected_reached w ms ok h1 h2 as _ j a n (fun x hx => he x (.inr hx))
      (fun x hx => hw x (.inr (.inr hx))) (fun x hx => hj x (.inr (.inr hx))) h
    rintro x (rfl | hx | hx)
    · exact hf
    · exact a1 x hx
    · exact b1 x hx
end

end Verif.Walk
