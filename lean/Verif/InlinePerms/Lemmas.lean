import Verif.InlinePerms.Spec
import Verif.Block.Lemmas
/-! Helper lemmas for inline permission tags. -/
namespace Verif.InlinePerms
open Spec Verif.Annotations Verif.Block Verif.Block.Spec

theorem until_char {c : Char} {t x : List Char} {y : Char} {rest : List Char}
    (ht : t.takeWhile (· ≠ c) = x) (hd : t.dropWhile (· ≠ c) = y :: rest) :
    c ∉ x ∧ t = x ++ c :: rest := by
  have hy := dropWhile_cons_eq hd
  simp only [ne_eq, decide_not, Bool.not_eq_false', decide_eq_true_eq] at hy
  subst hy
  constructor
  · intro hc
    rw [← ht] at hc
    have := (List.all_eq_true.1 (List.all_takeWhile (p := (· ≠ y)) (l := t))) _ hc
    simp at this
  · have := List.takeWhile_append_dropWhile (p := (· ≠ y)) (l := t)
    rw [hd, ht] at this
    exact this.symm

theorem until_char' {c : Char} {x rest : List Char} (hx : c ∉ x) :
    (x ++ c :: rest).takeWhile (· ≠ c) = x ∧ (x ++ c :: rest).dropWhile (· ≠ c) = c :: rest := by
  have hall : ∀ a ∈ x, decide (a ≠ c) = true := by
    intro a ha; simp; rintro rfl; exact hx ha
  rw [List.takeWhile_append_of_pos hall, List.dropWhile_append_of_pos hall]
  simp

theorem matchBraces_some {s p r} : matchBraces s = some (p, r) ↔
    '}' ∉ p ∧ s = '{' :: (p ++ '}' :: r) := by
  constructor
  · intro h
    unfold matchBraces at h
    split at h
    · rename_i t
      split at h
      · rename_i x rest hd
        simp only [Option.some.injEq, Prod.mk.injEq] at h
        obtain ⟨hp, rfl⟩ := h
        obtain ⟨h1, h2⟩ := until_char hp hd
        exact ⟨h1, by rw [h2]⟩
      · cases h
    · cases h
  · rintro ⟨hp, rfl⟩
    obtain ⟨h1, h2⟩ := until_char' (rest := r) hp
    simp only [matchBraces, h1, h2]

theorem matchPerm_some {s r opt perm} : matchPerm s = some (r, (opt, perm)) ↔
    ∃ o piece, opt = o.map (fun x => '[' :: x ++ [']']) ∧ IsTag o perm piece ∧ s = piece ++ r := by
  constructor
  · intro h
    unfold matchPerm at h
    split at h
    · cases h
    · rename_i s1 h1
      rw [tag_some] at h1
      split at h
      · rename_i t
        split at h
        · rename_i x rest hd
          simp only [Option.map_eq_some_iff, Prod.exists, Prod.mk.injEq] at h
          obtain ⟨p, r', hb, rfl, rfl, rfl⟩ := h
          obtain ⟨h2, h3⟩ := matchBraces_some.1 hb
          obtain ⟨h4, h5⟩ := until_char rfl hd
          refine ⟨some (t.takeWhile (· ≠ ']')), _, rfl, ⟨h2, h4, rfl⟩, ?_⟩
          rw [h1, h5, h3, (until_char' h4).1]
          simp [atPerm]
        · cases h
      · simp only [Option.map_eq_some_iff, Prod.exists, Prod.mk.injEq] at h
        obtain ⟨p, r', hb, rfl, rfl, rfl⟩ := h
        obtain ⟨h2, h3⟩ := matchBraces_some.1 hb
        refine ⟨none, _, rfl, ⟨h2, rfl⟩, ?_⟩
        rw [h1, h3]
        simp [atPerm]
  · rintro ⟨o, piece, rfl, ⟨hp, h⟩, rfl⟩
    unfold matchPerm
    cases o with
    | none =>
      simp only at h
      subst h
      have e : ['@', 'P', 'e', 'r', 'm', '{'] ++ perm ++ ['}'] ++ r =
          atPerm ++ ('{' :: (perm ++ '}' :: r)) := by simp [atPerm]
      rw [e, tag_some.2 rfl]
      have h1 : matchBraces ('{' :: (perm ++ '}' :: r)) = some (perm, r) :=
        matchBraces_some.2 ⟨hp, rfl⟩
      show Option.map _ (matchBraces ('{' :: (perm ++ '}' :: r))) = _
      rw [h1]; rfl
    | some o =>
      simp only at h
      obtain ⟨ho, rfl⟩ := h
      have e : ['@', 'P', 'e', 'r', 'm', '['] ++ o ++ [']', '{'] ++ perm ++ ['}'] ++ r =
          atPerm ++ ('[' :: (o ++ ']' :: ('{' :: (perm ++ '}' :: r)))) := by simp [atPerm]
      obtain ⟨h1, h2⟩ := until_char' (rest := '{' :: (perm ++ '}' :: r)) ho
      rw [e, tag_some.2 rfl]
      simp only [h1, h2, matchBraces_some.2 ⟨hp, rfl⟩, Option.map_some]

theorem matchPerm_suffix (s r : List Char) (b) (h : matchPerm s = some (r, b)) :
    ∃ q, s = q ++ r := by
  obtain ⟨opt, perm⟩ := b
  obtain ⟨o, piece, -, -, rfl⟩ := matchPerm_some.1 h
  exact ⟨piece, rfl⟩

end Verif.InlinePerms
