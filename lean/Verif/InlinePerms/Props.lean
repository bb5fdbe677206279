import Verif.InlinePerms.Lemmas
import Verif.Block.Props
/-!
# Properties C06 and C07: inline permission tags, and their interplay with blocks
-/
namespace Verif.InlinePerms
open Spec Verif.Annotations Verif.Block Verif.Block.Spec

/-! ## C06 -/

/-- A text recognised at the front: what is left, the option text and the name. -/
def TagHere (s : List Char) : Prop := ∃ o perm piece r, IsTag o perm piece ∧ s = piece ++ r

/-- **C06.** Scanning a document cuts it into gaps and tags; the captures are exactly the tags of this
decomposition with their byte ranges, and no tag begins inside a gap. -/
theorem C06_scanned (content : List Char) :
    ∃ found last, Scanned matchPerm content found last ∧ captures content = ranges 0 found ∧
      (∀ g piece opt perm, (g, piece, (opt, perm)) ∈ found →
        ∃ o, opt = o.map (fun x => '[' :: x ++ [']']) ∧ IsTag o perm piece) := by
  obtain ⟨found, last, h1, h2⟩ := scan_spec matchPerm matchPerm_length matchPerm_suffix 0 content
  refine ⟨found, last, h1, h2, ?_⟩
  intro g piece opt perm hm
  obtain ⟨rest, hr⟩ := h1.piece hm
  obtain ⟨o, piece', ho, ht, he⟩ := matchPerm_some.1 hr
  exact ⟨o, ho, by rwa [List.append_cancel_right he]⟩

/-- **C06.** Nothing is recognised exactly when no tag begins here: the gaps of `C06_scanned` contain
no beginning of a tag. -/
theorem C06_gap (s : List Char) : matchPerm s = none ↔ ¬ TagHere s := by
  constructor
  · rintro h ⟨o, perm, piece, r, ht, rfl⟩
    rw [matchPerm_some.2 ⟨o, piece, rfl, ht, rfl⟩] at h
    cases h
  · intro h
    cases hs : matchPerm s with
    | none => rfl
    | some x =>
      obtain ⟨r, opt, perm⟩ := x
      obtain ⟨o, piece, -, ht, he⟩ := matchPerm_some.1 hs
      exact absurd ⟨o, perm, piece, r, ht, he⟩ h

/-- **C06.** The tag ranges are ordered, disjoint and within the document, and the text of each range
is the tag. -/
theorem C06_ranges (content : List Char) :
    ((captures content).Pairwise fun x y => x.1.2 ≤ y.1.1) ∧
    ∀ x ∈ captures content, x.1.1 < x.1.2 ∧ x.1.2 ≤ bytes content ∧
      ∃ a piece c o, content = a ++ piece ++ c ∧ bytes a = x.1.1 ∧ bytes (a ++ piece) = x.1.2 ∧
        x.2.1 = o.map (fun y => '[' :: y ++ [']']) ∧ IsTag o x.2.2 piece := by
  obtain ⟨found, last, h1, h2, h3⟩ := C06_scanned content
  rw [h2]
  refine ⟨ranges_pairwise _ _, fun x hx => ?_⟩
  obtain ⟨a, piece, c, e1, e2, e3, g, e4⟩ := ranges_slice found last [] x (by simpa using hx)
  obtain ⟨o, ho, ht⟩ := h3 g piece x.2.1 x.2.2 e4
  have hc : content = a ++ piece ++ c := by rw [← e1]; simpa using h1.text
  have hne : piece ≠ [] := by
    intro e; subst e
    unfold IsTag at ht
    cases o <;> simp at ht
  refine ⟨?_, ?_, a, piece, c, o, hc, e2, e3, ho, ht⟩
  · have := bytes_pos hne
    rw [← e2, ← e3, bytes_append]; omega
  · rw [← e3, hc, bytes_append (a ++ piece)]; omega

/-- **C06.** A tag with a known permission and a known decoration is replaced by exactly its HTML. -/
theorem C06_render (p : Perm) (d : Deco) :
    renderTag ((d.opt.map String.toList).map fun x => '[' :: x ++ [']']) p.name.toList
      = .ok (html p d) := by
  cases p <;> cases d <;> decide +kernel

/-- **C06.** Any other permission name is reported as an error, whatever the option. -/
theorem C06_invalid (opt : Option (List Char)) (perm : List Char)
    (h : ∀ p : Perm, perm ≠ p.name.toList) :
    renderTag opt perm = .error (.invalidPermission perm) := by
  have hv : validPermissions.contains (String.ofList perm) = false := by
    simp only [validPermissions, List.contains_eq_mem, List.mem_cons, List.not_mem_nil, or_false,
      decide_eq_false_iff_not, not_or]
    have e (s : String) (hs : perm ≠ s.toList) : String.ofList perm ≠ s := by
      rintro rfl; simp at hs
    exact ⟨e _ (h .read), e _ (h .write), e _ (h .own), e _ (h .flow)⟩
  unfold renderTag
  simp only [hv, Bool.not_false, if_true, String.toList_ofList]

/-- **C06.** Conversely a replacement is produced only for known permissions and decorations: an
unknown decoration stops the program (`unimplemented!()`). -/
theorem C06_only_known (opt : Option (List Char)) (perm : List Char) (out : String)
    (h : renderTag opt perm = .ok out) :
    ∃ (p : Perm) (d : Deco), perm = p.name.toList ∧
      opt = (d.opt.map String.toList).map (fun x => '[' :: x ++ [']']) ∧ out = html p d := by
  have hp : ∃ p : Perm, perm = p.name.toList := by
    refine Classical.byContradiction fun hn => ?_
    rw [C06_invalid opt perm (fun p hp => hn ⟨p, hp⟩)] at h
    cases h
  obtain ⟨p, rfl⟩ := hp
  have hd : ∃ d : Deco, opt = (d.opt.map String.toList).map (fun x => '[' :: x ++ [']']) := by
    cases opt with
    | none => exact ⟨.plain, rfl⟩
    | some o =>
      have hv : validPermissions.contains (String.ofList p.name.toList) = true := by
        cases p <;> decide +kernel
      have hne : ∃ c t, (String.ofList p.name.toList).toList = c :: t := by
        cases p <;> exact ⟨_, _, rfl⟩
      obtain ⟨c, t, hct⟩ := hne
      have e (s : String) (hs : String.ofList o = s) : o = s.toList := by
        rw [← hs]; simp
      unfold renderTag at h
      simp only [hv, Bool.not_true, Bool.false_eq_true, if_false, hct, Option.map_some] at h
      split at h
      · rename_i ho; exact ⟨.gained, by rw [e _ ho]; decide +kernel⟩
      · split at h
        · rename_i ho; exact ⟨.lost, by rw [e _ ho]; decide +kernel⟩
        · split at h
          · rename_i ho; exact ⟨.missing, by rw [e _ ho]; decide +kernel⟩
          · cases h
  obtain ⟨d, rfl⟩ := hd
  rw [C06_render] at h
  exact ⟨p, d, rfl, rfl, by injection h with h; exact h.symm⟩

/-- What is made of a tag with option text `o` and permission name `perm` at `range`: its HTML with that
range; an error naming an unknown permission; a stop at an unknown option. -/
inductive Outcome (range : Nat × Nat) (o : Option (List Char)) (perm : List Char) :
    Except TagError ((Nat × Nat) × String) → Prop
  | html (p : Perm) (d : Deco) : perm = p.name.toList → o = d.opt.map String.toList →
      Outcome range o perm (.ok (range, Spec.html p d))
  | unknownPerm : (∀ p : Perm, perm ≠ p.name.toList) → Outcome range o perm (.error (.invalidPermission perm))
  | unknownOption (p : Perm) : perm = p.name.toList → (∀ d : Deco, o ≠ d.opt.map String.toList) →
      Outcome range o perm (.error .panicUnknownOption)

theorem renderTag_error {opt : Option (List Char)} {p : Perm} {e : TagError}
    (h : renderTag opt p.name.toList = .error e) : e = .panicUnknownOption := by
  have hv : validPermissions.contains (String.ofList p.name.toList) = true := by
    cases p <;> decide +kernel
  have hne : ∃ c t, (String.ofList p.name.toList).toList = c :: t := by
    cases p <;> exact ⟨_, _, rfl⟩
  obtain ⟨c, t, hct⟩ := hne
  unfold renderTag at h
  simp only [hv, Bool.not_true, Bool.false_eq_true, if_false, hct] at h
  split at h
  · split at h
    · cases h
    · split at h
      · cases h
      · split at h
        · cases h
        · injection h with h; exact h.symm
  · cases h

/-- **C06 (all tags).** A document is cut into gaps, in which no tag begins, and tags; there is exactly
one result for each tag, in the order of the document, and it is the outcome of that tag with its byte
range. -/
theorem C06_results (content : List Char) :
    ∃ found last, Scanned matchPerm content found last ∧
      (parsePerms content).length = found.length ∧
      ∀ (i : Nat) r, (parsePerms content)[i]? = some r →
        ∃ range gap piece opt perm o, found[i]? = some (gap, piece, (opt, perm)) ∧
          (ranges 0 found)[i]? = some (range, (opt, perm)) ∧ IsTag o perm piece ∧ Outcome range o perm r := by
  obtain ⟨found, last, h1, h2, h3⟩ := C06_scanned content
  have hlen : ∀ (pos : Nat) (l : List (List Char × List Char × (Option (List Char) × List Char))),
      (ranges pos l).length = l.length := by
    intro pos l
    induction l generalizing pos with
    | nil => rfl
    | cons x l ih => obtain ⟨g, p, b⟩ := x; simp [ranges, ih]
  have hget : ∀ (pos : Nat) (l : List (List Char × List Char × (Option (List Char) × List Char))) (i : Nat) x,
      (ranges pos l)[i]? = some x → ∃ g p, l[i]? = some (g, p, x.2) := by
    intro pos l
    induction l generalizing pos with
    | nil => intro i x h; simp [ranges] at h
    | cons y l ih =>
      obtain ⟨g, p, b⟩ := y
      intro i x h
      cases i with
      | zero => simp only [ranges, List.getElem?_cons_zero, Option.some.injEq] at h; subst h; exact ⟨g, p, rfl⟩
      | succ i => simp only [ranges, List.getElem?_cons_succ] at h; simpa using ih _ i x h
  refine ⟨found, last, h1, by simp [parsePerms, h2, hlen], fun i r hr => ?_⟩
  simp only [parsePerms, h2, List.getElem?_map, Option.map_eq_some_iff] at hr
  obtain ⟨⟨range, opt, perm⟩, hx, hr⟩ := hr
  obtain ⟨g, piece, hf⟩ := hget 0 found i _ hx
  obtain ⟨o, ho, ht⟩ := h3 g piece opt perm (List.mem_of_getElem? hf)
  refine ⟨range, g, piece, opt, perm, o, hf, hx, ht, ?_⟩
  have hinj : ∀ d : Deco, opt = (d.opt.map String.toList).map (fun x => '[' :: x ++ [']']) →
      o = d.opt.map String.toList := by
    intro d hd
    rw [ho] at hd
    cases o <;> cases hq : d.opt.map String.toList <;> simp_all
  dsimp only at hr
  cases hres : renderTag opt perm with
  | ok out =>
    rw [hres] at hr
    obtain ⟨p, d, hp, hd, rfl⟩ := C06_only_known opt perm out hres
    subst hr
    exact .html p d hp (hinj d hd)
  | error e =>
    rw [hres] at hr
    simp only [Except.map] at hr
    subst hr
    by_cases hp : ∃ p : Perm, perm = p.name.toList
    · obtain ⟨p, rfl⟩ := hp
      rw [renderTag_error hres]
      refine .unknownOption p rfl fun d hd => ?_
      rw [ho, hd, C06_render] at hres
      cases hres
    · have hn : ∀ p : Perm, perm ≠ p.name.toList := fun p h => hp ⟨p, h⟩
      rw [C06_invalid opt perm hn] at hres
      injection hres with hres
      subst hres
      exact .unknownPerm hn

/-- Non-vacuity: the examples of permissions.rs:53-67 and a rejected name. -/
example : parsePerms "Hello @Perm[lost]{read} world @Perm{x}".toList =
    [.ok ((6, 23), html .read .lost), .error (.invalidPermission ['x'])] := by decide +kernel

/-! ## C07 -/

/-- The replacements of a chapter (`preprocessor.rs:175-188`): one per block and one per tag; only
the ranges matter here.  (The order in which rayon returns the tags is unspecified; disjointness does
not depend on it.) -/
def replacementRanges (content : List Char) : List (Nat × Nat) :=
  (parseAll content).map (·.1) ++ (captures content).map (·.1)

/-- Two ranges do not overlap. -/
def Disjoint (x y : Nat × Nat) : Prop := x.2 ≤ y.1 ∨ y.2 ≤ x.1

instance (x y) : Decidable (Disjoint x y) := inferInstanceAs (Decidable (_ ∨ _))

/-- **C07, violated.** A permission tag inside an Aquascope block is found by both scanners, so two of
the replacements overlap. -/
theorem C07_overlap : ∃ content, ¬ (replacementRanges content).Pairwise Disjoint :=
  ⟨"```aquascope,i\n//@Perm{read}\n```".toList, by decide +kernel⟩

/-- Two positions in the same text: one decomposition is a prefix of the other. -/
theorem split_le {a b c d : List Char} (h : a ++ b = c ++ d) (hl : bytes a ≤ bytes c) :
    ∃ m, c = a ++ m ∧ b = m ++ d := by
  rcases List.append_eq_append_iff.1 h with ⟨m, h1, h2⟩ | ⟨m, h1, h2⟩
  · exact ⟨m, h1, h2⟩
  · have : bytes m = 0 := by
      rw [h1, bytes_append] at hl; omega
    have hm : m = [] := by
      refine Classical.byContradiction fun hne => ?_
      have := bytes_pos hne; omega
    subst hm
    exact ⟨[], by simpa using h1.symm, by simpa using h2.symm⟩

theorem getLast?_append_right {a b : List Char} (h : b ≠ []) :
    (a ++ b).getLast? = b.getLast? := by
  rw [List.getLast?_append]
  cases hb : b.getLast? with
  | none => exact absurd (List.getLast?_eq_none_iff.1 hb) h
  | some x => rfl

/-- **C07 (partial).** The full statement `∀ content, (replacementRanges content).Pairwise Disjoint` is
false (`C07_overlap`).  It holds for every chapter in which the text of no block contains `@Perm` and
the text of no tag contains "```aquascope,". -/
theorem C07_disjoint_partial (content : List Char)
    (hblock : ∀ a piece c, content = a ++ piece ++ c →
      (∃ x ∈ parseAll content, x.1 = (bytes a, bytes (a ++ piece))) →
      ¬ ∃ u v, piece = u ++ ['@', 'P', 'e', 'r', 'm'] ++ v)
    (htag : ∀ a piece c, content = a ++ piece ++ c →
      (∃ x ∈ captures content, x.1 = (bytes a, bytes (a ++ piece))) →
      ¬ ∃ u v, piece = u ++ ['`', '`', '`', 'a', 'q', 'u', 'a', 's', 'c', 'o', 'p', 'e', ','] ++ v) :
    (replacementRanges content).Pairwise Disjoint := by
  unfold replacementRanges
  rw [List.pairwise_append]
  refine ⟨?_, ?_, ?_⟩
  · rw [List.pairwise_map]
    exact (C04_disjoint content).imp fun h => .inl h
  · rw [List.pairwise_map]
    exact (C06_ranges content).1.imp fun h => .inl h
  · intro x hx y hy
    rw [List.mem_map] at hx hy
    obtain ⟨bx, hbx, rfl⟩ := hx
    obtain ⟨ty, hty, rfl⟩ := hy
    obtain ⟨hx1, -, a, p, c, hc, ha, hap, ⟨ops, opts, body, hp⟩, -⟩ := C04_range content bx hbx
    obtain ⟨hy1, -, a', p', c', o, hc', ha', hap', -, ht⟩ := (C06_ranges content).2 ty hty
    refine Classical.byContradiction fun hov => ?_
    simp only [Disjoint, not_or, Nat.not_le] at hov
    -- `@Perm` begins the tag
    obtain ⟨q, hq⟩ : ∃ q, p' = ['@', 'P', 'e', 'r', 'm'] ++ q := by
      unfold IsTag at ht
      cases o with
      | none => exact ⟨_, by simpa using ht.2⟩
      | some o => exact ⟨_, by simpa using ht.2.2⟩
    obtain ⟨q', hq'⟩ : ∃ q, p' = q ++ ['}'] := by
      unfold IsTag at ht
      cases o with
      | none => exact ⟨_, ht.2⟩
      | some o => exact ⟨_, ht.2.2⟩
    rcases Nat.le_total (bytes a) (bytes a') with hle | hle
    · -- the tag starts inside the block
      have he : a ++ (p ++ c) = a' ++ (p' ++ c') := by
        rw [← List.append_assoc, ← List.append_assoc, ← hc, hc']
      obtain ⟨m, hm1, hm2⟩ := split_le he hle
      have hlt : bytes (a ++ m) < bytes (a ++ p) := by
        rw [← hm1]; omega
      have hmp : m ++ (p' ++ c') = p ++ c := hm2.symm
      obtain ⟨n, hn1, hn2⟩ := split_le (a := m) (c := p) hmp (by
        rw [bytes_append, bytes_append] at hlt; omega)
      have hnne : n ≠ [] := by
        rintro rfl
        simp only [List.append_nil] at hn1
        subst hn1; omega
      -- `n` is the part of the block from the tag on; it ends in three backticks
      obtain ⟨w, hw⟩ : ∃ w, p = w ++ ['`', '`', '`'] := ⟨_, hp⟩
      have hn3 : ['@', 'P', 'e', 'r', 'm'] ++ (q ++ c') = n ++ c := by
        rw [← hn2, hq]; simp
      have hsuf : n <:+ w ++ ['`', '`', '`'] := by rw [← hw, hn1]; exact List.suffix_append _ _
      have hlast : n.getLast? = some '`' := by
        obtain ⟨z, hz⟩ := hsuf
        have := congrArg List.getLast? hz
        rw [getLast?_append_right hnne] at this
        rw [this]; simp
      have : ∃ v, n = ['@', 'P', 'e', 'r', 'm'] ++ v := by
        match n, hnne, hlast, hn3 with
        | [c0], _, hl, h3 => simp at hl h3; rw [hl] at h3; simp at h3
        | [c0, c1], _, hl, h3 => simp at hl h3; rw [hl] at h3; simp at h3
        | [c0, c1, c2], _, hl, h3 => simp at hl h3; rw [hl] at h3; simp at h3
        | [c0, c1, c2, c3], _, hl, h3 => simp at hl h3; rw [hl] at h3; simp at h3
        | c0 :: c1 :: c2 :: c3 :: c4 :: v, _, hl, h3 =>
          simp at h3
          obtain ⟨rfl, rfl, rfl, rfl, rfl, -⟩ := h3
          exact ⟨v, rfl⟩
      obtain ⟨v, hv⟩ := this
      exact hblock a p c hc ⟨bx, hbx, by rw [ha, hap]⟩ ⟨m, v, by rw [hn1, hv]; simp⟩
    · -- the block starts inside the tag
      have he : a' ++ (p' ++ c') = a ++ (p ++ c) := by
        rw [← List.append_assoc, ← List.append_assoc, ← hc, ← hc']
      obtain ⟨m, hm1, hm2⟩ := split_le he hle
      have hlt : bytes (a' ++ m) < bytes (a' ++ p') := by
        rw [← hm1]; omega
      obtain ⟨n, hn1, hn2⟩ := split_le (a := m) (c := p') hm2.symm (by
        rw [bytes_append, bytes_append] at hlt; omega)
      have hnne : n ≠ [] := by
        rintro rfl
        simp only [List.append_nil] at hn1
        subst hn1; omega
      have hlast : n.getLast? = some '}' := by
        have := congrArg List.getLast? (hn1.symm.trans hq')
        rw [getLast?_append_right hnne] at this
        rw [this]; simp
      have hn3 : ['`', '`', '`', 'a', 'q', 'u', 'a', 's', 'c', 'o', 'p', 'e', ','] ++
          (Verif.Annotations.Spec.joinWith '+' ops ++ (opts.map fun o => ',' :: o.text).flatten ++ body
            ++ ['`', '`', '`'] ++ c) = n ++ c' := by
        rw [← hn2, hp, header]; simp
      generalize (Verif.Annotations.Spec.joinWith '+' ops ++ (opts.map fun o => ',' :: o.text).flatten
        ++ body ++ ['`', '`', '`'] ++ c) = z at hn3
      have : ∃ v, n = ['`', '`', '`', 'a', 'q', 'u', 'a', 's', 'c', 'o', 'p', 'e', ','] ++ v := by
        rcases List.append_eq_append_iff.1 hn3 with ⟨v, h1, h2⟩ | ⟨v, h1, h2⟩
        · exact ⟨v, h1⟩
        · exfalso
          have : '}' ∈ n := List.mem_of_getLast? hlast
          have : '}' ∈ ['`', '`', '`', 'a', 'q', 'u', 'a', 's', 'c', 'o', 'p', 'e', ','] := by
            rw [h1]; simp [this]
          revert this; decide
      obtain ⟨v, hv⟩ := this
      exact htag a' p' c' hc' ⟨ty, hty, by rw [ha', hap']⟩ ⟨m, v, by rw [hn1, hv]; simp⟩

theorem split_eq {a b c d : List Char} (h : a ++ b = c ++ d) (hl : bytes a = bytes c) :
    a = c ∧ b = d := by
  obtain ⟨m, h1, h2⟩ := split_le h (by omega)
  have : m = [] := by
    refine Classical.byContradiction fun hne => ?_
    have := bytes_pos hne
    rw [h1, bytes_append] at hl; omega
  subst this
  exact ⟨by simpa using h1.symm, by simpa using h2⟩

/-- Non-vacuity of `C07_disjoint_partial`: a chapter with a tag and a block that meets the
hypotheses. -/
example : (replacementRanges ("@Perm{own}".toList ++ "```aquascope,i\nx\n```".toList)).Pairwise
    Disjoint := by
  have h1 : (parseAll ("@Perm{own}".toList ++ "```aquascope,i\nx\n```".toList)).map (·.1)
      = [(bytes "@Perm{own}".toList, 30)] := by decide +kernel
  have h2 : (captures ("@Perm{own}".toList ++ "```aquascope,i\nx\n```".toList)).map (·.1)
      = [(0, bytes "@Perm{own}".toList)] := by decide +kernel
  refine C07_disjoint_partial _ ?_ ?_
  · rintro a p c hc ⟨x, hx, he⟩ ⟨u, v, hp⟩
    have := List.mem_map_of_mem (f := (·.1)) hx
    rw [h1, he, List.mem_singleton, Prod.mk.injEq] at this
    rw [List.append_assoc] at hc
    obtain ⟨rfl, h3⟩ := split_eq hc this.1.symm
    have : '@' ∈ "```aquascope,i\nx\n```".toList := by rw [h3, hp]; simp
    revert this; decide +kernel
  · rintro a p c hc ⟨x, hx, he⟩ ⟨u, v, hp⟩
    have := List.mem_map_of_mem (f := (·.1)) hx
    rw [h2, he, List.mem_singleton, Prod.mk.injEq] at this
    obtain ⟨h3, rfl⟩ := split_eq hc this.2.symm
    have : '`' ∈ "@Perm{own}".toList := by rw [h3, hp]; simp
    revert this; decide +kernel

end Verif.InlinePerms
