import Verif.Chapter.Props
/-!
# C07 and C121: exactly which chapters are damaged
-/
namespace Verif.Chapter
open Verif.Annotations (bytes)
open Verif.Block (Block parseAll)
open Verif.InlinePerms (captures parsePerms renderTag Disjoint replacementRanges split_le split_eq)
open Verif.InlinePerms.Spec

/-- The range `t` starts inside the range `b`. -/
def StartsIn (b t : Nat × Nat) : Prop := b.1 ≤ t.1 ∧ t.1 < b.2

/-- A tag that can be rendered has no backtick, and its text is shorter than what takes its place. -/
theorem tag_text {opt : Option (List Char)} {perm piece : List Char} {out : String} {o : Option (List Char)}
    (h : renderTag opt perm = .ok out) (ho : opt = o.map fun x => '[' :: x ++ [']']) (ht : IsTag o perm piece) :
    '`' ∉ piece ∧ bytes piece < bytes out.toList := by
  obtain ⟨p, d, rfl, hd, rfl⟩ := InlinePerms.C06_only_known opt perm out h
  have hod : o = d.opt.map String.toList := by
    rw [ho] at hd
    cases o with
    | none => cases d <;> simp_all [Deco.opt]
    | some x =>
      cases hx : d.opt with
      | none => rw [hx] at hd; simp at hd
      | some y => rw [hx] at hd; simp at hd; simp [hd]
  subst hod
  cases p <;> cases d <;> (obtain ⟨-, ht⟩ := ht; first | (obtain rfl := ht.2; decide +kernel) | (obtain rfl := ht; decide +kernel))

/-- **C07 (exact).** In a chapter whose tags are all known, two replacements overlap exactly if a tag starts inside a block. -/
theorem C07_exact (s : Text) (ht : ∀ x ∈ captures s, ∀ e, renderTag x.2.1 x.2.2 ≠ .error e) :
    (replacementRanges s).Pairwise Disjoint ↔ ∀ b ∈ parseAll s, ∀ t ∈ captures s, ¬StartsIn b.1 t.1 := by
  constructor
  · intro h b hb t htm hs
    unfold replacementRanges at h
    have := (List.pairwise_append.1 h).2.2 b.1 (List.mem_map_of_mem hb) t.1 (List.mem_map_of_mem htm)
    have h1 := (Block.C04_range s b hb).1
    have h2 := ((InlinePerms.C06_ranges s).2 t htm).1
    unfold Disjoint at this
    unfold StartsIn at hs
    omega
  · intro h
    unfold replacementRanges
    rw [List.pairwise_append]
    refine ⟨?_, ?_, ?_⟩
    · rw [List.pairwise_map]
      exact (Block.C04_disjoint s).imp fun h => .inl h
    · rw [List.pairwise_map]
      exact (InlinePerms.C06_ranges s).1.imp fun h => .inl h
    · intro x hx y hy
      obtain ⟨b, hb, rfl⟩ := List.mem_map.1 hx
      obtain ⟨t, htm, rfl⟩ := List.mem_map.1 hy
      have hn := h b hb t htm
      obtain ⟨hx1, -, a, p, c, hc, ha, hap, ⟨ops, opts, body, hp⟩, -⟩ := Block.C04_range s b hb
      obtain ⟨hy1, -, a', p', c', o, hc', ha', hap', ho, hit⟩ := (InlinePerms.C06_ranges s).2 t htm
      refine Classical.byContradiction fun hov => ?_
      simp only [Disjoint, not_or, Nat.not_le] at hov
      unfold StartsIn at hn
      cases hr : renderTag t.2.1 t.2.2 with
      | error e => exact ht t htm e hr
      | ok out =>
        obtain ⟨hbt, -⟩ := tag_text hr ho hit
        -- the block starts inside the tag
        have he : a' ++ (p' ++ c') = a ++ (p ++ c) := by
          rw [← List.append_assoc, ← List.append_assoc, ← hc, ← hc']
        obtain ⟨m, hm1, hm2⟩ := split_le he (by omega)
        have hlt : bytes (a' ++ m) < bytes (a' ++ p') := by rw [← hm1]; omega
        obtain ⟨n, hn1, hn2⟩ := split_le (a := m) (c := p') hm2.symm (by
          rw [bytes_append, bytes_append] at hlt; omega)
        have hnne : n ≠ [] := by
          rintro rfl
          simp only [List.append_nil] at hn1
          subst hn1; omega
        match n, hnne, hn1, hn2 with
        | c0 :: n, _, hn1, hn2 =>
          have : c0 = '`' := by
            rw [hp] at hn2
            simp [Block.Spec.header] at hn2
            exact hn2.1.symm
          subst this
          exact hbt (by rw [hn1]; simp)

theorem spliced_apart {pos : Nat} {l : List Repl} {s out : Text} (h : Spliced pos l s out) :
    (∀ r ∈ l, pos ≤ r.1.1 ∧ r.1.1 ≤ r.1.2) ∧ l.Pairwise fun x y => x.1.2 ≤ y.1.1 := by
  induction h with
  | done => exact ⟨nofun, .nil⟩
  | next h1 h2 _ ih =>
    obtain ⟨i1, i2⟩ := ih
    refine ⟨fun r hr => ?_, List.pairwise_cons.2 ⟨fun r hr => (i1 r hr).1, i2⟩⟩
    rcases List.mem_cons.1 hr with rfl | hr
    · dsimp only; omega
    · have := i1 r hr; omega

/-- **C121 (exact).** If all blocks and tags of a chapter can be shown, the chapter is handed on with each of them replaced and
the rest kept exactly if no tag starts inside a block. -/
theorem C121_exact (process : Block → Option Text) (s : Text) (hb : ∀ x ∈ parseAll s, process x.2 ≠ none)
    (ht : ∀ x ∈ captures s, ∀ e, renderTag x.2.1 x.2.2 ≠ .error e) :
    (∃ l out, chapter process s = some out ∧ Spliced 0 l s out ∧ (l.map (·.1)).Perm (replacementRanges s) ∧
      ∀ r, r ∈ l ↔ Right process s r) ↔ ∀ b ∈ parseAll s, ∀ t ∈ captures s, ¬StartsIn b.1 t.1 := by
  rw [← C07_exact s ht]
  constructor
  · rintro ⟨l, out, -, hs, hp, -⟩
    obtain ⟨-, h⟩ := spliced_apart hs
    have : (l.map (·.1)).Pairwise Disjoint := by
      rw [List.pairwise_map]; exact h.imp fun h => .inl h
    exact hp.pairwise this fun h => by unfold Disjoint at h ⊢; omega
  · exact fun hd => C121_chapter_partial process s hd hb ht

theorem cut_some {s u v : Text} {n : Nat} (h : cut s n = some (u, v)) : s = u ++ v ∧ bytes u = n := by
  induction s generalizing n u v with
  | nil =>
    cases n with
    | zero => simp [cut] at h; obtain ⟨rfl, rfl⟩ := h; exact ⟨rfl, rfl⟩
    | succ n => simp [cut] at h
  | cons c s ih =>
    cases n with
    | zero => simp [cut] at h; obtain ⟨rfl, rfl⟩ := h; exact ⟨rfl, rfl⟩
    | succ n =>
      unfold cut at h
      split at h
      · cases h
      · rename_i hc
        cases hx : cut s (n + 1 - c.utf8Size) with
        | none => rw [hx] at h; cases h
        | some x =>
          rw [hx] at h
          cases h
          obtain ⟨h1, h2⟩ := ih hx
          refine ⟨by rw [h1]; rfl, ?_⟩
          have : bytes (c :: x.1) = c.utf8Size + bytes x.1 := by simp [bytes]
          omega

/-- **C121, violated in general.** A chapter with one block and one known tag inside it: either the build ends in a panic, or the
end of the block, as many bytes as the tag has grown, stays in the chapter behind the element. -/
theorem C121_leaks (process : Block → Option Text) {s a p tag q c e : Text} {b : Block} {o : Option (List Char)} {perm : List Char}
    {html : String} (hs : s = a ++ (p ++ tag ++ q) ++ c)
    (hb : parseAll s = [((bytes a, bytes (a ++ (p ++ tag ++ q))), b)])
    (hc : captures s = [((bytes (a ++ p), bytes (a ++ p ++ tag)), o, perm)])
    (he : process b = some e) (hh : renderTag o perm = .ok html) :
    chapter process s = none ∨ ∃ w, w ≠ [] ∧ bytes w + bytes tag = bytes html.toList ∧ w <:+ p ++ html.toList ++ q ∧
      chapter process s = some (a ++ e ++ (w ++ c)) := by
  have hlt : bytes tag < bytes html.toList := by
    obtain ⟨-, -, a', piece, c', o', h1, h2, h3, h4, h5⟩ :=
      (InlinePerms.C06_ranges s).2 ((bytes (a ++ p), bytes (a ++ p ++ tag)), o, perm) (by rw [hc]; simp)
    obtain ⟨-, h6⟩ := tag_text hh h4 h5
    dsimp only at h2 h3
    simp only [bytes_append] at h2 h3
    omega
  have hr : replacements process s = some [((bytes a, bytes (a ++ (p ++ tag ++ q))), e),
      ((bytes (a ++ p), bytes (a ++ p ++ tag)), html.toList)] := by
    simp [replacements, parsePerms, hb, hc, he, hh, okOf, Except.map]
  have hsort : sortStart [((bytes a, bytes (a ++ (p ++ tag ++ q))), e), ((bytes (a ++ p), bytes (a ++ p ++ tag)), html.toList)] =
      [((bytes a, bytes (a ++ (p ++ tag ++ q))), e), ((bytes (a ++ p), bytes (a ++ p ++ tag)), html.toList)] := by
    simp only [sortStart, List.foldr_cons, List.foldr_nil, insertStart]
    rw [if_neg (by rw [bytes_append]; omega)]
  have h1 : replaceRange s ((bytes (a ++ p), bytes (a ++ p ++ tag)), html.toList) = some (a ++ p ++ html.toList ++ (q ++ c)) := by
    rw [show s = (a ++ p) ++ tag ++ (q ++ c) by rw [hs]; simp only [List.append_assoc]]
    exact replaceRange_eq _ _ _ _
  have hch : chapter process s = replaceRange (a ++ p ++ html.toList ++ (q ++ c)) ((bytes a, bytes (a ++ (p ++ tag ++ q))), e) := by
    simp only [chapter, hr, Option.bind_some, rewrite, hsort, putIn, List.foldr_cons, List.foldr_nil, h1]
  rw [hch]
  unfold replaceRange
  dsimp only
  rw [if_pos (by rw [bytes_append]; omega)]
  have hcut : cut (a ++ p ++ html.toList ++ (q ++ c)) (bytes a) = some (a, p ++ html.toList ++ (q ++ c)) := by
    rw [show a ++ p ++ html.toList ++ (q ++ c) = a ++ (p ++ html.toList ++ (q ++ c)) by simp only [List.append_assoc]]
    exact cut_append _ _
  rw [hcut]
  cases hx : cut (a ++ p ++ html.toList ++ (q ++ c)) (bytes (a ++ (p ++ tag ++ q))) with
  | none => exact .inl rfl
  | some x =>
    obtain ⟨u, v⟩ := x
    obtain ⟨e1, e2⟩ := cut_some hx
    refine .inr ?_
    have e3 : u ++ v = a ++ (p ++ html.toList ++ q) ++ c := by rw [← e1]; simp only [List.append_assoc]
    obtain ⟨w, hw1, hw2⟩ := split_le e3 (by rw [e2]; simp only [bytes_append]; omega)
    have hwb : bytes w + bytes tag = bytes html.toList := by
      have := congrArg bytes hw1
      simp only [bytes_append] at this e2
      omega
    refine ⟨w, ?_, hwb, ?_, by rw [hw2]⟩
    · rintro rfl; simp at hwb; omega
    · have : u ++ w = a ++ (p ++ html.toList ++ q) := hw1.symm
      obtain ⟨m, hm1, hm2⟩ := split_le this.symm (by rw [e2, bytes_append]; omega)
      exact ⟨m, hm2.symm⟩

/-- **C121, violated: a panic.** The place where the block ended before the tag was replaced need not be between two characters. -/
theorem C121_panics : chapter (fun _ => some ['E']) "```aquascope,i\n//@Perm{read}\nexxxxxxxxxxxxxxx\n```".toList ≠ none ∧
    chapter (fun _ => some ['E']) "```aquascope,i\n//@Perm{read}\néxxxxxxxxxxxxxxxx\n```".toList = none := by
  have h1 : parsePerms "```aquascope,i\n//@Perm{read}\nexxxxxxxxxxxxxxx\n```".toList =
      [.ok ((17, 28), "<span class=\"perm read\">R</span>")] := by decide +kernel
  have h2 : parsePerms "```aquascope,i\n//@Perm{read}\néxxxxxxxxxxxxxxxx\n```".toList =
      [.ok ((17, 28), "<span class=\"perm read\">R</span>")] := by decide +kernel
  unfold chapter replacements
  rw [h1, h2]
  decide +kernel

end Verif.Chapter
