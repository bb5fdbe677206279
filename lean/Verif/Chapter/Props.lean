import Verif.Chapter.Model
/-!
# C121: a chapter keeps everything but its blocks and tags
-/
namespace Verif.Chapter
open Verif.Annotations (bytes)
open Verif.Block (Block parseAll)
open Verif.InlinePerms (captures parsePerms renderTag Disjoint replacementRanges)

/-! ## Specification -/

/-- `out` is the rest `s` of a chapter, from byte `pos` on, with the ranges replaced one after the other and everything between
them kept. -/
inductive Spliced : Nat → List Repl → Text → Text → Prop
  | done {pos s} : Spliced pos [] s s
  | next {pos lo hi new rs s s'} {gap old : Text} : pos + bytes gap = lo → lo + bytes old = hi → Spliced hi rs s s' →
      Spliced pos (((lo, hi), new) :: rs) (gap ++ old ++ s) (gap ++ new ++ s')

/-- The range consists of whole characters of the text. -/
def Marks (s : Text) (r : Nat × Nat) : Prop :=
  ∃ a piece c, s = a ++ piece ++ c ∧ bytes a = r.1 ∧ bytes (a ++ piece) = r.2 ∧ piece ≠ []

/-! ## Cutting -/

theorem bytes_append (a b : Text) : bytes (a ++ b) = bytes a + bytes b := by
  simp [bytes]

theorem cut_append (a b : Text) : cut (a ++ b) (bytes a) = some (a, b) := by
  induction a with
  | nil => cases b <;> rfl
  | cons c a ih =>
    have hc : 0 < c.utf8Size := Char.utf8Size_pos c
    have hb : bytes (c :: a) = c.utf8Size + bytes a := by simp [bytes]
    obtain ⟨n, hn⟩ : ∃ n, bytes (c :: a) = n + 1 := ⟨bytes (c :: a) - 1, by omega⟩
    rw [hn, List.cons_append]
    unfold cut
    rw [if_neg (by omega)]
    have : n + 1 - c.utf8Size = bytes a := by omega
    rw [this, ih]
    rfl

theorem replaceRange_eq (a old c new : Text) :
    replaceRange (a ++ old ++ c) ((bytes a, bytes (a ++ old)), new) = some (a ++ new ++ c) := by
  unfold replaceRange
  have h1 : cut (a ++ old ++ c) (bytes a) = some (a, old ++ c) := by rw [List.append_assoc, cut_append]
  dsimp only
  rw [if_pos (by rw [bytes_append]; omega), h1, cut_append]

/-- Putting in from the last to the first is splicing. -/
theorem putIn_eq {pos : Nat} {rs : List Repl} {s out : Text} (h : Spliced pos rs s out) :
    ∀ pre, bytes pre = pos → putIn (pre ++ s) rs = some (pre ++ out) := by
  induction h with
  | done => exact fun _ _ => rfl
  | @next pos lo hi new rs s s' gap old h1 h2 _ ih =>
    intro pre hpre
    have e : pre ++ (gap ++ old ++ s) = pre ++ gap ++ old ++ s := by simp
    have hb : bytes (pre ++ gap ++ old) = hi := by simp only [bytes_append]; omega
    have := ih (pre ++ gap ++ old) hb
    unfold putIn at this ⊢
    rw [List.foldr_cons, e, this]
    have hlo : bytes (pre ++ gap) = lo := by rw [bytes_append]; omega
    have := replaceRange_eq (pre ++ gap) old s' new
    rw [hlo, hb] at this
    simpa using this

/-- In order and apart from each other, ranges of whole characters can be spliced. -/
theorem spliced_exists (s : Text) : ∀ (rs : List Repl) (pre rest : Text), s = pre ++ rest →
    (∀ r ∈ rs, Marks s r.1 ∧ bytes pre ≤ r.1.1) → rs.Pairwise (fun x y => x.1.2 ≤ y.1.1) →
    ∃ out, Spliced (bytes pre) rs rest out := by
  intro rs
  induction rs with
  | nil => exact fun pre rest _ _ _ => ⟨rest, .done⟩
  | cons r rs ih =>
    intro pre rest hs hm hp
    rw [List.pairwise_cons] at hp
    obtain ⟨⟨a, piece, c, h1, h2, h3, -⟩, hle⟩ := hm r (by simp)
    obtain ⟨gap, hg1, hg2⟩ := InlinePerms.split_le (a := pre) (b := rest) (c := a) (d := piece ++ c)
      (by rw [← hs, h1, List.append_assoc]) (by omega)
    obtain ⟨out, ho⟩ := ih (a ++ piece) c (by rw [h1])
      (fun x hx => ⟨(hm x (by simp [hx])).1, by have := hp.1 x hx; omega⟩) hp.2
    refine ⟨gap ++ r.2 ++ out, ?_⟩
    rw [hg2, ← List.append_assoc]
    obtain ⟨⟨lo, hi⟩, new⟩ := r
    dsimp only at h2 h3 ⊢
    rw [h3] at ho
    refine .next ?_ ?_ ho
    · rw [← h2, hg1, bytes_append]
    · rw [← h2, ← h3, bytes_append]

/-! ## Sorting -/

theorem insertStart_perm (x : Repl) (l : List Repl) : (insertStart x l).Perm (x :: l) := by
  induction l with
  | nil => exact .refl _
  | cons y l ih =>
    unfold insertStart
    split
    · exact (ih.cons y).trans (.swap x y l)
    · exact .refl _

theorem sortStart_perm (l : List Repl) : (sortStart l).Perm l := by
  induction l with
  | nil => exact .refl _
  | cons x l ih => exact (insertStart_perm x _).trans (ih.cons x)

theorem insertStart_sorted (x : Repl) {l : List Repl} (h : l.Pairwise (fun x y => x.1.1 ≤ y.1.1)) :
    (insertStart x l).Pairwise (fun x y => x.1.1 ≤ y.1.1) := by
  induction l with
  | nil => simp [insertStart]
  | cons y l ih =>
    rw [List.pairwise_cons] at h
    unfold insertStart
    split
    · rename_i hlt
      rw [List.pairwise_cons]
      refine ⟨fun z hz => ?_, ih h.2⟩
      rcases List.mem_cons.1 ((insertStart_perm x l).mem_iff.1 hz) with rfl | hz
      · omega
      · exact h.1 z hz
    · rename_i hge
      rw [List.pairwise_cons]
      refine ⟨fun z hz => ?_, List.pairwise_cons.2 h⟩
      rcases List.mem_cons.1 hz with rfl | hz
      · omega
      · have := h.1 z hz; omega

theorem sortStart_sorted (l : List Repl) : (sortStart l).Pairwise (fun x y => x.1.1 ≤ y.1.1) := by
  induction l with
  | nil => exact .nil
  | cons x l ih => exact insertStart_sorted x ih

theorem marks_lt {s : Text} {r : Nat × Nat} (h : Marks s r) : r.1 < r.2 := by
  obtain ⟨a, piece, c, -, h2, h3, h4⟩ := h
  have := Block.bytes_pos h4
  rw [bytes_append] at h3
  omega

/-- Sorted, ranges that do not overlap lie one behind the other. -/
theorem sortStart_apart {s : Text} {l : List Repl} (hm : ∀ r ∈ l, Marks s r.1)
    (hd : l.Pairwise fun x y => Disjoint x.1 y.1) : (sortStart l).Pairwise fun x y => x.1.2 ≤ y.1.1 := by
  have hd' : (sortStart l).Pairwise fun x y => Disjoint x.1 y.1 := by
    refine (sortStart_perm l).symm.pairwise hd fun h => ?_
    unfold Disjoint at h ⊢
    omega
  have hm' : ∀ r ∈ sortStart l, r.1.1 < r.1.2 := fun r hr => marks_lt (hm r ((sortStart_perm l).mem_iff.1 hr))
  have := (sortStart_sorted l).and hd'
  refine this.imp_of_mem fun {x y} hx hy h => ?_
  have h1 := hm' x hx
  have h2 := hm' y hy
  have h3 := h.1
  have h4 := h.2
  unfold Disjoint at h4
  omega

/-! ## Chapters -/

/-- **C121 (rewriting).** Ranges of whole characters that do not overlap are replaced by their texts, and everything between
them, before and behind is kept; nothing else is added. -/
theorem C121_rewrite (s : Text) (l : List Repl) (hm : ∀ r ∈ l, Marks s r.1)
    (hd : l.Pairwise fun x y => Disjoint x.1 y.1) :
    ∃ out, rewrite s l = some out ∧ Spliced 0 (sortStart l) s out := by
  obtain ⟨out, ho⟩ := spliced_exists s (sortStart l) [] s rfl
    (fun r hr => ⟨hm r ((sortStart_perm l).mem_iff.1 hr), by simp [bytes]⟩) (sortStart_apart hm hd)
  exact ⟨out, by simpa [rewrite] using putIn_eq ho [] rfl, ho⟩

/-- **C121 (order).** The order in which the replacements are found makes no difference. -/
theorem C121_order (s : Text) (l l' : List Repl) (hp : l.Perm l') (hm : ∀ r ∈ l, Marks s r.1)
    (hd : l.Pairwise fun x y => Disjoint x.1 y.1) : rewrite s l = rewrite s l' := by
  unfold rewrite
  congr 1
  have hd' : l'.Pairwise fun x y => Disjoint x.1 y.1 :=
    hp.pairwise hd fun h => by unfold Disjoint at h ⊢; omega
  have hm' : ∀ r ∈ l', Marks s r.1 := fun r hr => hm r (hp.mem_iff.2 hr)
  refine List.Perm.eq_of_pairwise (le := fun x y : Repl => x.1.2 ≤ y.1.1) ?_ (sortStart_apart hm hd) (sortStart_apart hm' hd')
    ((sortStart_perm l).trans (hp.trans (sortStart_perm l').symm))
  intro x y hx hy h1 h2
  have := marks_lt (hm x ((sortStart_perm l).mem_iff.1 hx))
  have := marks_lt (hm' y ((sortStart_perm l').mem_iff.1 hy))
  omega

theorem insertStart_filter (n : Nat) (x : Repl) (l : List Repl) :
    (insertStart x l).filter (fun r => r.1.1 = n) = (x :: l).filter (fun r => r.1.1 = n) := by
  induction l with
  | nil => rfl
  | cons y l ih =>
    unfold insertStart
    split
    · rename_i h
      rw [List.filter_cons, ih, List.filter_cons, List.filter_cons, List.filter_cons]
      by_cases hx : x.1.1 = n
      · have : ¬y.1.1 = n := by omega
        simp [hx, this]
      · simp [hx]
    · rfl

/-- **C121 (stable).** Replacements that start in the same place are put in so that the first found comes first: the sort is by
the start, and keeps the order otherwise. -/
theorem C121_stable (l : List Repl) : (sortStart l).Perm l ∧ (sortStart l).Pairwise (fun x y => x.1.1 ≤ y.1.1) ∧
    ∀ n, (sortStart l).filter (fun r => r.1.1 = n) = l.filter (fun r => r.1.1 = n) := by
  refine ⟨sortStart_perm l, sortStart_sorted l, fun n => ?_⟩
  induction l with
  | nil => rfl
  | cons x l ih =>
    show (insertStart x (sortStart l)).filter _ = _
    rw [insertStart_filter, List.filter_cons, ih, List.filter_cons]

/-- Two in the same place. -/
example : sortStart [((4, 5), ['a']), ((2, 3), ['b']), ((2, 2), ['c'])] = [((2, 3), ['b']), ((2, 2), ['c']), ((4, 5), ['a'])] := by
  decide

theorem mapM_id {α : Type} (xs : List (Option α)) (l : List α) : xs.mapM id = some l ↔ xs = l.map some := by
  induction xs generalizing l with
  | nil => cases l <;> simp
  | cons x xs ih =>
    rw [List.mapM_cons]
    cases x with
    | none => cases l <;> simp
    | some a =>
      cases l with
      | nil => cases h : xs.mapM id <;> simp [h]
      | cons b l => cases h : xs.mapM id <;> simp [h, ← ih]

/-- What takes the place of a range: the text of its block or the letters of its tag. -/
def Right (process : Block → Option Text) (s : Text) (r : Repl) : Prop :=
  (∃ b, (r.1, b) ∈ parseAll s ∧ process b = some r.2) ∨
  ∃ o p html, (r.1, o, p) ∈ captures s ∧ renderTag o p = .ok html ∧ r.2 = html.toList

theorem replacements_iff (process : Block → Option Text) (s : Text) :
    (∀ l, replacements process s = some l → l.map (·.1) = replacementRanges s ∧ ∀ r, r ∈ l ↔ Right process s r) ∧
    (replacements process s = none ↔
      (∃ x ∈ parseAll s, process x.2 = none) ∨ ∃ x ∈ captures s, ∃ e, renderTag x.2.1 x.2.2 = .error e) := by
  have hc : (parsePerms s).map (fun x => (okOf x).map fun y => (y.1, y.2.toList)) =
      (captures s).map fun x => (okOf (renderTag x.2.1 x.2.2)).map fun h => (x.1, h.toList) := by
    unfold parsePerms
    rw [List.map_map]
    refine List.map_congr_left fun x _ => ?_
    simp only [Function.comp]
    cases renderTag x.2.1 x.2.2 <;> rfl
  unfold replacements
  rw [hc]
  constructor
  · intro l hl
    rw [mapM_id] at hl
    constructor
    · have h1 : ∀ x ∈ parseAll s, ∃ t, (process x.2).map (fun t => (x.1, t)) = some (x.1, t) := by
        intro x hx
        have : (process x.2).map (fun t => (x.1, t)) ∈ l.map some := by
          rw [← hl]; exact List.mem_append_left _ (List.mem_map_of_mem hx)
        obtain ⟨r, -, hr⟩ := List.mem_map.1 this
        cases hp : process x.2 with
        | none => rw [hp] at hr; cases hr
        | some t => exact ⟨t, rfl⟩
      have h2 : ∀ x ∈ captures s, ∃ t, (okOf (renderTag x.2.1 x.2.2)).map (fun h => (x.1, h.toList)) = some (x.1, t) := by
        intro x hx
        have : (okOf (renderTag x.2.1 x.2.2)).map (fun h => (x.1, h.toList)) ∈ l.map some := by
          rw [← hl]; exact List.mem_append_right _ (List.mem_map_of_mem hx)
        obtain ⟨r, -, hr⟩ := List.mem_map.1 this
        cases hp : renderTag x.2.1 x.2.2 with
        | error e => rw [hp] at hr; cases hr
        | ok t => exact ⟨t.toList, rfl⟩
      have := congrArg (List.map (Option.map (·.1))) hl
      rw [List.map_append, List.map_map, List.map_map, List.map_map] at this
      unfold replacementRanges
      have hinj : ∀ a b : List (Nat × Nat), a.map some = b.map some → a = b := by
        intro a b h
        have h' := congrArg (List.filterMap id) h
        simpa using h'
      refine hinj _ _ ?_
      rw [List.map_map, List.map_append, List.map_map, List.map_map]
      refine Eq.trans this.symm (congr (congrArg _ (List.map_congr_left fun x hx => ?_)) (List.map_congr_left fun x hx => ?_))
      · obtain ⟨t, ht⟩ := h1 x hx
        simp only [Function.comp, ht]
        rfl
      · obtain ⟨t, ht⟩ := h2 x hx
        simp only [Function.comp, ht]
        rfl
    · intro r
      have : r ∈ l ↔ some r ∈ l.map some := by simp
      rw [this, ← hl, List.mem_append, List.mem_map, List.mem_map]
      unfold Right
      refine or_congr ?_ ?_
      · constructor
        · rintro ⟨x, hx, he⟩
          cases hp : process x.2 with
          | none => rw [hp] at he; cases he
          | some t => rw [hp] at he; cases he; exact ⟨x.2, hx, hp⟩
        · rintro ⟨b, hb, hp⟩
          exact ⟨(r.1, b), hb, by simp [hp]⟩
      · constructor
        · rintro ⟨x, hx, he⟩
          cases hp : renderTag x.2.1 x.2.2 with
          | error e => rw [hp] at he; cases he
          | ok t => rw [hp] at he; cases he; exact ⟨x.2.1, x.2.2, t, hx, hp, rfl⟩
        · rintro ⟨o, p, html, hb, hp, he⟩
          exact ⟨(r.1, o, p), hb, by simp [hp, okOf, ← he]⟩
  · have hn : ∀ xs : List (Option Repl), xs.mapM id = none ↔ none ∈ xs := by
      intro xs
      induction xs with
      | nil => simp
      | cons x xs ih =>
        rw [List.mapM_cons]
        cases x with
        | none => simp
        | some a =>
          cases h : xs.mapM id with
          | none => simpa [h] using ih.1 h
          | some l =>
            have : none ∉ xs := fun hm => by rw [ih.2 hm] at h; cases h
            simp [h, this]
    rw [hn, List.mem_append, List.mem_map, List.mem_map]
    refine or_congr ?_ ?_
    · constructor
      · rintro ⟨x, hx, he⟩
        cases hp : process x.2 with
        | none => exact ⟨x, hx, hp⟩
        | some t => rw [hp] at he; cases he
      · rintro ⟨x, hx, he⟩
        exact ⟨x, hx, by simp [he]⟩
    · constructor
      · rintro ⟨x, hx, he⟩
        cases hp : renderTag x.2.1 x.2.2 with
        | error e => exact ⟨x, hx, e, hp⟩
        | ok t => rw [hp] at he; cases he
      · rintro ⟨x, hx, e, he⟩
        exact ⟨x, hx, by simp [he, okOf]⟩

theorem ranges_mark (s : Text) : ∀ r ∈ replacementRanges s, Marks s r := by
  intro r hr
  unfold replacementRanges at hr
  rcases List.mem_append.1 hr with hr | hr
  · obtain ⟨x, hx, rfl⟩ := List.mem_map.1 hr
    obtain ⟨h1, -, a, piece, c, h2, h3, h4, -⟩ := Block.C04_range s x hx
    refine ⟨a, piece, c, h2, h3, h4, ?_⟩
    rintro rfl
    simp at h4
    omega
  · obtain ⟨x, hx, rfl⟩ := List.mem_map.1 hr
    obtain ⟨h1, -, a, piece, c, o, h2, h3, h4, -⟩ := (InlinePerms.C06_ranges s).2 x hx
    refine ⟨a, piece, c, h2, h3, h4, ?_⟩
    rintro rfl
    simp at h4
    omega

/-- **C121 (chapter).** If no range overlaps another (C07), the chapter that is handed on is the chapter with its blocks and
tags replaced, each by its own text, and everything else as it was. -/
theorem C121_chapter_partial (process : Block → Option Text) (s : Text) (hd : (replacementRanges s).Pairwise Disjoint)
    (hb : ∀ x ∈ parseAll s, process x.2 ≠ none) (ht : ∀ x ∈ captures s, ∀ e, renderTag x.2.1 x.2.2 ≠ .error e) :
    ∃ l out, chapter process s = some out ∧ Spliced 0 l s out ∧ (l.map (·.1)).Perm (replacementRanges s) ∧
      ∀ r, r ∈ l ↔ Right process s r := by
  obtain ⟨h1, h2⟩ := replacements_iff process s
  cases hl : replacements process s with
  | none =>
    rcases h2.1 hl with ⟨x, hx, h⟩ | ⟨x, hx, e, h⟩
    · exact absurd h (hb x hx)
    · exact absurd h (ht x hx e)
  | some l =>
    obtain ⟨h3, h4⟩ := h1 l hl
    have hd' : l.Pairwise fun x y => Disjoint x.1 y.1 := by
      rw [← List.pairwise_map (f := fun x : Repl => x.1), h3]; exact hd
    have hm : ∀ r ∈ l, Marks s r.1 := fun r hr =>
      ranges_mark s r.1 (by rw [← h3]; exact List.mem_map_of_mem hr)
    obtain ⟨out, ho, hs⟩ := C121_rewrite s l hm hd'
    refine ⟨sortStart l, out, by simp [chapter, hl, ho], hs, ?_, fun r => ?_⟩
    · rw [← h3]; exact (sortStart_perm l).map _
    · rw [(sortStart_perm l).mem_iff, h4]

/-- **C121 (errors).** If one block or one tag ends with an error, there is no chapter at all. -/
theorem C121_fails (process : Block → Option Text) (s : Text)
    (h : (∃ x ∈ parseAll s, process x.2 = none) ∨ ∃ x ∈ captures s, ∃ e, renderTag x.2.1 x.2.2 = .error e) :
    chapter process s = none := by
  unfold chapter
  rw [(replacements_iff process s).2.2 h]
  rfl

/-- **C121 (other chapters).** A chapter without blocks and tags stays as it is. -/
theorem C121_untouched (process : Block → Option Text) (s : Text) (hb : parseAll s = []) (ht : captures s = []) :
    chapter process s = some s := by
  simp [chapter, replacements, parsePerms, hb, ht, rewrite, putIn, sortStart]

/-- **C121, violated.** A tag inside a block is replaced first; then the block is taken to end where it did before, and the end
of its text stays in the chapter, behind the element (`E`). -/
theorem C121_leak : chapter (fun _ => some ['E']) "```aquascope,i\n//@Perm{read}\n```\nend".toList =
    some "Erm read\">R</span>\n```\nend".toList := by
  have hp : parsePerms "```aquascope,i\n//@Perm{read}\n```\nend".toList =
      [.ok ((17, 28), "<span class=\"perm read\">R</span>")] := by decide +kernel
  unfold chapter replacements
  rw [hp]
  decide +kernel

/-- A chapter with a tag before and behind a block, and other text. -/
example : chapter (fun b => some ('<' :: b.code ++ ['>'])) "a @Perm{own}\n```aquascope,i\nx\n```\nä @Perm{read} z".toList =
    some "a <span class=\"perm own\">O</span>\n<x>\nä <span class=\"perm read\">R</span> z".toList := by
  have hp : parsePerms "a @Perm{own}\n```aquascope,i\nx\n```\nä @Perm{read} z".toList =
      [.ok ((2, 12), "<span class=\"perm own\">O</span>"), .ok ((37, 48), "<span class=\"perm read\">R</span>")] := by
    decide +kernel
  unfold chapter replacements
  rw [hp]
  decide +kernel

example : chapter (fun _ => none) "```aquascope,i\nx\n```\n".toList = none ∧
    chapter (fun _ => some []) "@Perm{x}".toList = none := by
  decide +kernel

end Verif.Chapter
