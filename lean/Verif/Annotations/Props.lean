import Verif.Annotations.Lemmas
/-!
# Properties C01, C02, C03: annotations of code blocks
-/
namespace Verif.Annotations
open Spec

/-! ## C01 -/

/-- **C01.** For every block body, the cleaned program is made of the same lines in the same order,
each line being the source line with exactly the recognised annotations deleted: the `lines` are the
lines of the text (`Lined`), each is read as hidden, escaped or cut at its leftmost markers (`Reads`)
and contributes its `cleaned` text. -/
theorem C01_cleaned (code : List Char) :
    ∃ ls rs, Lined code ls ∧ List.Forall₂ Reads ls rs ∧
      (parseAnnotations code).1 = joinWith '\n' (rs.map Reading.cleaned) := by
  obtain ⟨rs, frs, h1, h2, h3⟩ := processLines_spec (lines code) {} 0 0
  refine ⟨lines code, rs, lines_lined code, h1, ?_⟩
  simp [parseAnnotations, h3, joinOutput_eq, h2]

/-- **C01.** The reading of a line is determined by the line, so `C01_cleaned` fixes the output. -/
theorem C01_reading_unique {l r r'} (h : Reads l r) (h' : Reads l r') : r = r' := h.unique h'

/-- **C01.** Putting the deleted pieces back gives the original line: nothing else was changed. -/
theorem C01_restore {l r} (h : Reads l r) : r.source = l := h.source

/-- **C01.** What the reader sees of an annotated line contains no text that was not in the line:
the cleaned text is a sublist (in order) of the source line. -/
theorem C01_no_invention {l segs last} (h : Reads l (.annotated segs last)) :
    (Reading.annotated segs last).cleaned.Sublist l := by
  have := h.source
  rw [← this]
  simp only [Reading.source, Reading.cleaned]
  apply List.Sublist.append _ (List.Sublist.refl _)
  clear this h
  induction segs with
  | nil => simp
  | cons s t ih =>
    simp only [List.map_cons, List.flatten_cons]
    exact List.Sublist.append (List.sublist_append_left _ _) ih

example : (parseAnnotations "#fn f() {\n  `[]`g();`(focus)` h()\n\\# x `[]`\n}".toList).1
    = "fn f() {\n  g(); h()\n# x `[]`\n}".toList := by decide +kernel
example : Reads "a`[]`b".toList (.annotated [("a".toList, .interp, [])] "b".toList) := by
  obtain ⟨m, hm, he, hl⟩ := findMarker_some (s := "a`[]`b".toList) (pre := "a".toList)
    (k := .interp) (i := []) (rest := "b".toList) (by decide +kernel)
  refine .annotated _ _ _ (by intro t; simp) (by intro t; simp) ?_
  rw [he]
  exact .mark _ _ _ _ _ _ _ hm hl (.done _ (findMarker_none (by decide +kernel)))

/-! ## C02 -/

/-- Reading a text is determined by the text (used to restate the theorems about "the" reading). -/
theorem parse_eq {code ls rs} (hl : Lined code ls) (hr : List.Forall₂ Reads ls rs) :
    ∃ frs, frs.map List.flatten = rs.map Reading.cleaned ∧
      processLines {} 0 0 (lines code) = (foldReadings {} 0 0 rs, frs) := by
  obtain ⟨rs', frs, h1, h2, h3⟩ := processLines_spec (lines code) {} 0 0
  rw [← hl.eq_lines] at h1
  obtain rfl := Forall₂_unique hr h1
  exact ⟨frs, h2, h3⟩

/-- **C01**, as a function of the reading. -/
theorem C01_output {code ls rs} (hl : Lined code ls) (hr : List.Forall₂ Reads ls rs) :
    (parseAnnotations code).1 = joinWith '\n' (rs.map Reading.cleaned) := by
  obtain ⟨frs, h1, h2⟩ := parse_eq hl hr
  simp [parseAnnotations, h2, joinOutput_eq, h1]

/-- **C02.** The state locations reported are, in order of appearance of the `[]` markers, the
lengths in bytes of the cleaned text in front of each marker. -/
theorem C02_locations {code ls rs} (hl : Lined code ls) (hr : List.Forall₂ Reads ls rs) :
    (parseAnnotations code).2.stateLocations = (docPrefixes [] rs).map bytes := by
  obtain ⟨frs, h1, h2⟩ := parse_eq hl hr
  have := foldReadings_state rs {} 0 []
  simpa [parseAnnotations, h2] using this

theorem segPrefixes_prefix (segs : List Seg) (acc last p : List Char)
    (h : p ∈ segPrefixes acc segs) :
    p <+: acc ++ ((segs.map (·.1)).flatten ++ last) := by
  induction segs generalizing acc with
  | nil => simp [segPrefixes] at h
  | cons s t ih =>
    obtain ⟨q, k, i⟩ := s
    simp only [segPrefixes, List.mem_append] at h
    simp only [List.map_cons, List.flatten_cons, List.append_assoc]
    rcases h with h | h
    · split at h
      · simp only [List.mem_singleton] at h
        subst h
        rw [← List.append_assoc]
        exact List.prefix_append _ _
      · simp at h
    · have := ih _ h
      simpa using this

theorem docPrefixes_prefix (rs : List Reading) (acc p : List Char) (h : p ∈ docPrefixes acc rs) :
    p <+: acc ++ joinWith '\n' (rs.map Reading.cleaned) := by
  induction rs generalizing acc with
  | nil => simp [docPrefixes] at h
  | cons r rs ih =>
    simp only [docPrefixes, List.mem_append, List.mem_map] at h
    rcases h with ⟨q, hq, rfl⟩ | h
    · have hp : q <+: r.cleaned := by
        cases r with
        | hidden t => simp [Reading.prefixes] at hq
        | escaped t => simp [Reading.prefixes] at hq
        | annotated segs last =>
          have := segPrefixes_prefix segs [] last q hq
          simpa [Reading.cleaned] using this
      rw [List.prefix_append_right_inj]
      cases rs with
      | nil => simpa [joinWith] using hp
      | cons r' rs => exact hp.trans (by simp [joinWith])
    · cases rs with
      | nil => simp [docPrefixes] at h
      | cons r' rs =>
        have := ih _ h
        simpa [joinWith] using this

/-- **C02.** Every state location is a position inside the cleaned program, and the cleaned program
up to that position is exactly the cleaned text that stood in front of the marker. -/
theorem C02_split {code ls rs} (hl : Lined code ls) (hr : List.Forall₂ Reads ls rs)
    (n : Nat) (hn : n ∈ (parseAnnotations code).2.stateLocations) :
    ∃ before after, before ∈ docPrefixes [] rs ∧ (parseAnnotations code).1 = before ++ after ∧
      bytes before = n := by
  rw [C02_locations hl hr, List.mem_map] at hn
  obtain ⟨p, hp, rfl⟩ := hn
  obtain ⟨q, hq⟩ := docPrefixes_prefix rs [] p hp
  refine ⟨p, q, hp, ?_, rfl⟩
  rw [C01_output hl hr, hq]; rfl

/-- Length of a text in UTF-16 code units, the unit of positions in the editor
(CodeMirror documents are JavaScript strings). -/
def utf16Len (s : List Char) : Nat := (s.map fun c => if c.val < 0x10000 then 1 else 2).sum

/-- **C02.** For ASCII programs the reported byte offset is also the editor's character position. -/
theorem C02_ascii_positions (s : List Char) (h : ∀ c ∈ s, c.val < 0x80) :
    bytes s = s.length ∧ utf16Len s = s.length := by
  induction s with
  | nil => simp [utf16Len]
  | cons c t ih =>
    obtain ⟨i1, i2⟩ := ih (fun d hd => h d (by simp [hd]))
    have hc := h c (by simp)
    have hc1 : c.val ≤ 0x7f := by
      rw [UInt32.lt_iff_toNat_lt] at hc; rw [UInt32.le_iff_toNat_le]
      simp at hc ⊢; omega
    have hc2 : c.val < 0x10000 := by
      rw [UInt32.lt_iff_toNat_lt] at hc ⊢
      simp at hc ⊢; omega
    constructor
    · rw [bytes_cons, i1]
      simp [Char.utf8Size, hc1]; omega
    · simp [utf16Len, hc2] at i2 ⊢; omega

/-- **C02, violated for non-ASCII programs.** The editor reads the reported number as a character
(UTF-16) position (`frontend/.../interpreter.tsx` `filterSteps`, `MdCharPos`), but it is a byte
offset: there is a block whose only marker is reported at a position that does not split the cleaned
program where the marker stood. -/
theorem C02_not_char_position : ∃ code ls rs,
    Lined code ls ∧ List.Forall₂ Reads ls rs ∧
    ∃ n ∈ (parseAnnotations code).2.stateLocations,
      ∀ before ∈ docPrefixes [] rs, utf16Len before ≠ n := by
  refine ⟨"é`[]`x".toList, ["é`[]`x".toList], [.annotated [("é".toList, .interp, [])] "x".toList],
    .last _ (by simp) (by simp), .cons ?_ .nil, 2, by decide +kernel, by decide +kernel⟩
  obtain ⟨m, hm, he, hl⟩ := findMarker_some (s := "é`[]`x".toList) (pre := "é".toList)
    (k := .interp) (i := []) (rest := "x".toList) (by decide +kernel)
  refine .annotated _ _ _ (by intro t; simp) (by intro t; simp) ?_
  rw [he]
  exact .mark _ _ _ _ _ _ _ hm hl (.done _ (findMarker_none (by decide +kernel)))

/-- Non-vacuity of the C02 theorems: a block with two state markers on different lines. -/
example : (parseAnnotations "#fn f() {\nlet x = 1;`[]`\n`(focus)`y`[]`;".toList).2.stateLocations
    = [19, 21] := by decide +kernel

/-! ## C03 -/

theorem isHidden_iff {l r} (h : Reads l r) : r.isHidden = true ↔ l.head? = some '#' := by
  cases h with
  | hidden => simp [Reading.isHidden]
  | escaped => simp [Reading.isHidden]
  | annotated _ _ _ h1 =>
    simp only [Reading.isHidden, Bool.false_eq_true, false_iff]
    intro h
    cases l with
    | nil => simp at h
    | cons c t => simp at h; subst h; exact h1 t rfl

theorem filter_hidden {ls : List (List Char)} {rs : List Reading} (hr : List.Forall₂ Reads ls rs)
    (n : Nat) :
    ((rs.zipIdx n).filter (·.1.isHidden)).map (·.2) =
      ((ls.zipIdx n).filter (·.1.head? = some '#')).map (·.2) := by
  induction hr generalizing n with
  | nil => rfl
  | cons h _ ih =>
    simp only [List.zipIdx_cons, List.filter_cons]
    have := isHidden_iff h
    rename_i b _ _ _
    by_cases hh : b.isHidden = true
    · rw [if_pos hh, if_pos (by simpa using this.1 hh)]
      simp [ih]
    · rw [if_neg hh, if_neg (by simpa using fun e => hh (this.2 e))]
      simp [ih]

/-- **C03.** The hidden lines are exactly the 1-based numbers of the lines that begin with `#`, in
order. -/
theorem C03_hidden {code ls} (hl : Lined code ls) :
    (parseAnnotations code).2.hiddenLines =
      ((ls.zipIdx 1).filter (·.1.head? = some '#')).map (·.2) := by
  obtain ⟨ls', rs, hl', hr, -⟩ := C01_cleaned code
  obtain rfl : ls = ls' := by rw [hl.eq_lines, hl'.eq_lines]
  obtain ⟨frs, h1, h2⟩ := parse_eq hl hr
  simp [parseAnnotations, h2, foldReadings_hidden, filter_hidden hr]

/-- **C03.** Hidden line numbers are strictly increasing. -/
theorem C03_hidden_increasing (code : List Char) :
    (parseAnnotations code).2.hiddenLines.Pairwise (· < ·) := by
  rw [C03_hidden (lines_lined code)]
  rw [List.pairwise_map]
  apply List.Pairwise.filter
  rw [← List.pairwise_map (f := Prod.snd) (R := fun a b => a < b)]
  rw [List.zipIdx_map_snd]
  exact List.pairwise_lt_range'

/-- **C03.** A line is focused for the stepper iff, among its markers, there is a stepper marker
whose options include `focus`. -/
theorem C03_stepper_focus {code ls rs} (hl : Lined code ls) (hr : List.Forall₂ Reads ls rs)
    (n : Nat) :
    n ∈ (parseAnnotations code).2.stepperLines ↔
      ∃ segs last, rs[n - 1]? = some (.annotated segs last) ∧ 1 ≤ n ∧
        ∃ p i v, (p, Kind.stepper, i) ∈ segs ∧ OptionIs i "focus".toList v := by
  obtain ⟨frs, h1, h2⟩ := parse_eq hl hr
  simp only [parseAnnotations, h2, foldReadings_stepper, List.nil_append, List.mem_flatMap]
  constructor
  · rintro ⟨⟨r, m⟩, hm, hx⟩
    rw [List.mem_zipIdx_iff_le_and_getElem?_sub] at hm
    simp only [List.mem_map, List.mem_filter, decide_eq_true_eq, Option.isSome_iff_exists] at hx
    obtain ⟨⟨p, k, i⟩, ⟨hseg, hk, v, hv⟩, rfl⟩ := hx
    simp only at hk; subst hk
    cases r with
    | hidden => simp [Reading.segs] at hseg
    | escaped => simp [Reading.segs] at hseg
    | annotated segs last =>
      exact ⟨segs, last, hm.2, hm.1, p, i, v, hseg, cfgGet_iff.1 hv⟩
  · rintro ⟨segs, last, hs, h1, p, i, v, hseg, ho⟩
    refine ⟨(.annotated segs last, n), ?_, ?_⟩
    · rw [List.mem_zipIdx_iff_le_and_getElem?_sub]; exact ⟨h1, hs⟩
    · simp only [List.mem_map, List.mem_filter, decide_eq_true_eq]
      exact ⟨(p, .stepper, i), ⟨hseg, rfl, by rw [cfgGet_iff.2 ho]; rfl⟩, trivial⟩

/-- **C03.** A line is focused for the boundaries iff it has a boundaries marker. -/
theorem C03_boundary_focus {code ls rs} (hl : Lined code ls) (hr : List.Forall₂ Reads ls rs)
    (n : Nat) :
    n ∈ (parseAnnotations code).2.boundaryLines ↔
      ∃ segs last, rs[n - 1]? = some (.annotated segs last) ∧ 1 ≤ n ∧
        ∃ p i, (p, Kind.boundaries, i) ∈ segs := by
  obtain ⟨frs, h1, h2⟩ := parse_eq hl hr
  simp only [parseAnnotations, h2, foldReadings_boundary, List.nil_append, List.mem_flatMap]
  constructor
  · rintro ⟨⟨r, m⟩, hm, hx⟩
    rw [List.mem_zipIdx_iff_le_and_getElem?_sub] at hm
    simp only [List.mem_map, List.mem_filter, decide_eq_true_eq] at hx
    obtain ⟨⟨p, k, i⟩, ⟨hseg, hk⟩, rfl⟩ := hx
    simp only at hk; subst hk
    cases r with
    | hidden => simp [Reading.segs] at hseg
    | escaped => simp [Reading.segs] at hseg
    | annotated segs last =>
      exact ⟨segs, last, hm.2, hm.1, p, i, hseg⟩
  · rintro ⟨segs, last, hs, h1, p, i, hseg⟩
    refine ⟨(.annotated segs last, n), ?_, ?_⟩
    · rw [List.mem_zipIdx_iff_le_and_getElem?_sub]; exact ⟨h1, hs⟩
    · simp only [List.mem_map, List.mem_filter, decide_eq_true_eq]
      exact ⟨(p, .boundaries, i), ⟨hseg, rfl⟩, trivial⟩

/-- The path matchers one marker contributes: for a stepper marker the value of `paths` as a
literal and then the value of `rxpaths` as a regular expression, each if given. -/
def MatchersOf (s : Seg) (ms : List PathMatcher) : Prop :=
  if s.2.1 = .stepper then
    ∃ lit rx : Option (List Char), ms = lit.toList.map .literal ++ rx.toList.map .regex ∧
      (∀ v, lit = some v ↔ OptionIs s.2.2 "paths".toList v) ∧
      (∀ v, rx = some v ↔ OptionIs s.2.2 "rxpaths".toList v)
  else ms = []

theorem segMatchers_spec (s : Seg) : MatchersOf s (segMatchers s) := by
  unfold MatchersOf segMatchers
  split
  · exact ⟨_, _, rfl, fun v => cfgGet_iff, fun v => cfgGet_iff⟩
  · rfl

/-- **C03.** The path matchers recorded for a line are exactly those given by the markers of that
line, in order. -/
theorem C03_paths {code ls rs} (hl : Lined code ls) (hr : List.Forall₂ Reads ls rs)
    (n : Nat) (segs last) (h1 : 1 ≤ n) (hn : rs[n - 1]? = some (.annotated segs last)) :
    ∃ mss, List.Forall₂ MatchersOf segs mss ∧
      (parseAnnotations code).2.focusedPathsAt n = mss.flatten := by
  obtain ⟨frs, e1, e2⟩ := parse_eq hl hr
  refine ⟨segs.map segMatchers, ?_, ?_⟩
  · clear hn
    induction segs with
    | nil => exact .nil
    | cons s t ih => exact .cons (segMatchers_spec s) ih
  · simp only [parseAnnotations, e2, Annots.focusedPathsAt, foldReadings_paths, List.nil_append]
    clear e1 e2 hl hr
    have key : ∀ (rs : List Reading) (k : Nat), k ≤ n → rs[n - k]? = some (.annotated segs last) →
        (((rs.zipIdx k).flatMap fun x => (x.1.segs.flatMap segMatchers).map fun m => (x.2, m)).filter
          (·.1 = n)).map (·.2) = (segs.map segMatchers).flatten := by
      intro rs
      induction rs with
      | nil => intro k hk h; simp at h
      | cons r rs ih =>
        intro k hk h
        simp only [List.zipIdx_cons, List.flatMap_cons, List.filter_append, List.map_append]
        rcases Nat.eq_or_lt_of_le hk with rfl | hlt
        · simp only [Nat.sub_self, List.getElem?_cons_zero, Option.some.injEq] at h
          subst h
          have hrest : ((rs.zipIdx (k + 1)).flatMap fun x =>
              (x.1.segs.flatMap segMatchers).map fun m => (x.2, m)).filter (·.1 = k) = [] := by
            rw [List.filter_eq_nil_iff]
            simp only [List.mem_flatMap, List.mem_map]
            rintro ⟨a, m⟩ ⟨⟨r, j⟩, hj, ⟨_, _, hj'⟩⟩
            have := List.le_snd_of_mem_zipIdx hj
            simp at this hj' ⊢
            omega
          rw [hrest]
          rw [List.filter_eq_self.2 (by
            intro x hx
            simp only [List.mem_map] at hx
            obtain ⟨_, _, rfl⟩ := hx
            simp), List.map_map]
          simp only [List.map_nil, List.append_nil, Reading.segs, List.flatMap_def]
          exact List.map_id _
        · have hfirst : ((r.segs.flatMap segMatchers).map fun m => (k, m)).filter (·.1 = n) = [] := by
            rw [List.filter_eq_nil_iff]
            intro x hx
            simp only [List.mem_map] at hx
            obtain ⟨_, _, rfl⟩ := hx
            simp; omega
          rw [hfirst]
          have : n - k = (n - (k + 1)) + 1 := by omega
          rw [this, List.getElem?_cons_succ] at h
          simpa using ih (k + 1) hlt h
    exact key rs 1 h1 hn

/-- **C03.** Lines that are hidden, escaped or absent have no path matchers. -/
theorem C03_paths_none {code ls rs} (hl : Lined code ls) (hr : List.Forall₂ Reads ls rs)
    (n : Nat) (hn : ¬ ∃ segs last, 1 ≤ n ∧ rs[n - 1]? = some (.annotated segs last)) :
    (parseAnnotations code).2.focusedPathsAt n = [] := by
  obtain ⟨frs, e1, e2⟩ := parse_eq hl hr
  simp only [parseAnnotations, e2, Annots.focusedPathsAt, foldReadings_paths, List.nil_append]
  rw [List.map_eq_nil_iff, List.filter_eq_nil_iff]
  simp only [List.mem_flatMap, List.mem_map]
  rintro ⟨a, m⟩ ⟨⟨r, j⟩, hj, ⟨s, hs, hj'⟩⟩
  rw [List.mem_zipIdx_iff_le_and_getElem?_sub] at hj
  simp only [Prod.mk.injEq] at hj'
  simp only [decide_eq_true_eq]
  rintro rfl
  obtain ⟨rfl, rfl⟩ := hj'
  cases r with
  | hidden => simp [Reading.segs] at hs
  | escaped => simp [Reading.segs] at hs
  | annotated segs last => exact hn ⟨segs, last, hj.1, hj.2⟩

/-- Non-vacuity of the C03 theorems. -/
example : (parseAnnotations "#a\nb`(focus,paths:x,rxpaths:y)``{}`\nc`(paths:z)`\n#d".toList).2 =
    { hiddenLines := [1, 4], stateLocations := [], stepperLines := [2],
      stepperPaths := [(2, .literal ['x']), (2, .regex ['y']), (3, .literal ['z'])],
      boundaryLines := [2] } := by decide +kernel
example : OptionIs "focus,paths:x".toList "paths".toList "x".toList :=
  ⟨["focus".toList], [], "paths:x".toList, by decide, by decide, by decide,
    ⟨by decide, .inr (by decide)⟩, by simp⟩

end Verif.Annotations
