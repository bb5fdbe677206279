import Verif.Annotations.Spec
import Batteries.Data.List.Basic
/-! Helper lemmas for the annotation parser. -/
namespace Verif.Annotations
open Spec

@[simp] theorem bytes_nil : bytes [] = 0 := rfl
theorem bytes_append (a b : List Char) : bytes (a ++ b) = bytes a + bytes b := by
  simp [bytes]
theorem bytes_cons (c : Char) (b : List Char) : bytes (c :: b) = c.utf8Size + bytes b := by
  simp [bytes]

theorem Kind.ofChar_eq {c k} : Kind.ofChar c = some k ↔ c = k.opening := by
  unfold Kind.ofChar Kind.opening
  cases k <;> simp <;> grind

theorem opening_eq (k : Kind) : k.opening = (brackets k).1 := by cases k <;> rfl
theorem closing_eq (k : Kind) : k.closing = (brackets k).2 := by cases k <;> rfl

theorem brackets_inj {k k' : Kind} (h : (brackets k).1 = (brackets k').1) : k = k' := by
  cases k <;> cases k' <;> simp_all [brackets]

theorem dropWhile_cons_eq {p : Char → Bool} {t : List Char} {x r} (h : t.dropWhile p = x :: r) :
    p x = false := by
  induction t with
  | nil => simp at h
  | cons a t ih =>
    rw [List.dropWhile_cons] at h
    split at h
    · exact ih h
    · simp_all

theorem matchAt_some {s k i r} :
    matchAt s = some (k, i, r) ↔ ∃ m, IsMarker k i m ∧ s = m ++ r := by
  constructor
  · intro h
    unfold matchAt at h
    split at h
    · split at h
      · cases h
      · rename_i c t _ k' hk
        split at h
        · rename_i x rest hd
          simp only [Option.some.injEq, Prod.mk.injEq] at h
          obtain ⟨rfl, rfl, rfl⟩ := h
          rw [Kind.ofChar_eq] at hk
          subst hk
          have hx := dropWhile_cons_eq hd
          simp only [ne_eq, decide_not, Bool.not_eq_false', decide_eq_true_eq] at hx
          refine ⟨_, ⟨?_, rfl⟩, ?_⟩
          · intro hc
            have := (List.all_eq_true.1 (List.all_takeWhile (p := (· ≠ k'.closing)) (l := t))) _ hc
            simp [closing_eq] at this
          · have := List.takeWhile_append_dropWhile (p := (· ≠ k'.closing)) (l := t)
            rw [hd] at this
            simp only [List.cons_append, List.append_assoc, opening_eq]
            conv => lhs; rw [← this]
            simp [hx, closing_eq]
        · cases h
    · cases h
  · rintro ⟨m, ⟨hi, rfl⟩, rfl⟩
    have h1 : Kind.ofChar (brackets k).1 = some k := by rw [Kind.ofChar_eq, opening_eq]
    have hall : ∀ a ∈ i, decide (a ≠ k.closing) = true := by
      intro a ha
      simp [closing_eq]; rintro rfl; exact hi ha
    have ht : (i ++ [(brackets k).2, '`'] ++ r).takeWhile (· ≠ k.closing) = i := by
      rw [List.append_assoc, List.takeWhile_append_of_pos hall]
      simp [closing_eq]
    have hd : (i ++ [(brackets k).2, '`'] ++ r).dropWhile (· ≠ k.closing)
        = (brackets k).2 :: '`' :: r := by
      rw [List.append_assoc, List.dropWhile_append_of_pos hall]
      simp [closing_eq]
    simp only [List.cons_append, matchAt, h1]
    rw [ht, hd]
    rfl

theorem matchAt_none {s} : matchAt s = none ↔ ¬ MarkerHere s := by
  constructor
  · rintro h ⟨k, i, m, r, hm, rfl⟩
    rw [matchAt_some.2 ⟨m, hm, rfl⟩] at h
    cases h
  · intro h
    cases hs : matchAt s with
    | none => rfl
    | some x =>
      obtain ⟨k, i, r⟩ := x
      obtain ⟨m, hm, rfl⟩ := matchAt_some.1 hs
      exact absurd ⟨k, i, m, r, hm, rfl⟩ h

theorem findMarker_some {s pre k i rest} (h : findMarker s = some (pre, k, i, rest)) :
    ∃ m, IsMarker k i m ∧ s = pre ++ m ++ rest ∧
      ∀ a b, pre = a ++ b → b ≠ [] → ¬ MarkerHere (b ++ m ++ rest) := by
  induction s generalizing pre with
  | nil => simp [findMarker] at h
  | cons c t ih =>
    unfold findMarker at h
    split at h
    · rename_i hm
      simp only [Option.some.injEq, Prod.mk.injEq] at h
      obtain ⟨rfl, rfl, rfl, rfl⟩ := h
      obtain ⟨m, hm, he⟩ := matchAt_some.1 hm
      refine ⟨m, hm, by simpa using he, ?_⟩
      intro a b hab hb
      simp_all
    · rename_i hn
      split at h
      · rename_i hm
        simp only [Option.some.injEq, Prod.mk.injEq] at h
        obtain ⟨rfl, rfl, rfl, rfl⟩ := h
        obtain ⟨m, hk, rfl, hl⟩ := ih hm
        refine ⟨m, hk, by simp, ?_⟩
        intro a b hab hb
        cases a with
        | nil =>
          simp only [List.nil_append] at hab
          subst hab
          rw [matchAt_none] at hn
          simpa using hn
        | cons x a =>
          simp only [List.cons_append, List.cons.injEq] at hab
          exact hl a b hab.2 hb
      · cases h

theorem findMarker_none {s} (h : findMarker s = none) :
    ∀ a b, s = a ++ b → ¬ MarkerHere b := by
  induction s with
  | nil =>
    intro a b hab
    have : b = [] := by simp_all
    subst this
    rw [← matchAt_none]; rfl
  | cons c t ih =>
    unfold findMarker at h
    split at h
    · cases h
    · rename_i hn
      split at h
      · cases h
      · rename_i hf
        intro a b hab
        cases a with
        | nil =>
          simp only [List.nil_append] at hab
          subst hab
          exact matchAt_none.1 hn
        | cons x a =>
          simp only [List.cons_append, List.cons.injEq] at hab
          exact ih hf a b hab.2

theorem Spec.IsMarker.ne_nil {k i m} (h : IsMarker k i m) : m ≠ [] := by
  rw [h.2]; simp

theorem marker_unique {k i m r k' i' m' r'} (h : IsMarker k i m) (h' : IsMarker k' i' m')
    (he : m ++ r = m' ++ r') : k = k' ∧ i = i' ∧ m = m' ∧ r = r' := by
  have h1 := (matchAt_some (r := r)).2 ⟨m, h, rfl⟩
  have h2 := (matchAt_some (r := r')).2 ⟨m', h', rfl⟩
  rw [he, h2] at h1
  simp only [Option.some.injEq, Prod.mk.injEq] at h1
  obtain ⟨rfl, rfl, rfl⟩ := h1
  exact ⟨rfl, rfl, by rw [h.2, h'.2], rfl⟩

/-- A segmentation is unique. -/
theorem Spec.Segmented.unique {l segs last segs' last'} (h : Segmented l segs last)
    (h' : Segmented l segs' last') : segs = segs' ∧ last = last' := by
  induction h generalizing segs' last' with
  | done l hn =>
    cases h' with
    | done => exact ⟨rfl, rfl⟩
    | mark pre m rest k i segs last hm hl ht =>
      exact absurd ⟨k, i, m, rest, hm, rfl⟩ (hn pre (m ++ rest) (by simp))
  | mark pre m rest k i segs last hm hl ht ih =>
    generalize hq : pre ++ m ++ rest = q at h'
    cases h' with
    | done _ hn =>
      exact absurd ⟨k, i, m, rest, hm, rfl⟩ (hn pre (m ++ rest) (by simp [← hq]))
    | mark pre' m' rest' k' i' segs' last' hm' hl' ht' =>
      have hpre : pre = pre' := by
        simp only [List.append_assoc] at hq
        rcases List.append_eq_append_iff.1 hq with ⟨b, hb1, hb2⟩ | ⟨b, hb1, hb2⟩
        · by_cases hbe : b = []
          · subst hbe; simpa using hb1.symm
          · refine absurd ⟨k, i, m, rest, hm, ?_⟩ (hl' pre b hb1 hbe)
            simpa using hb2.symm
        · by_cases hbe : b = []
          · subst hbe; simpa using hb1
          · refine absurd ⟨k', i', m', rest', hm', ?_⟩ (hl pre' b hb1 hbe)
            simpa using hb2.symm
      subst hpre
      simp only [List.append_assoc, List.append_cancel_left_eq] at hq
      obtain ⟨rfl, rfl, rfl, rfl⟩ := marker_unique hm hm' hq
      obtain ⟨rfl, rfl⟩ := ih ht'
      exact ⟨rfl, rfl⟩

theorem Spec.Reads.unique {l r r'} (h : Reads l r) (h' : Reads l r') : r = r' := by
  cases h with
  | hidden t => cases h' with
    | hidden => rfl
    | annotated _ _ _ h1 => exact absurd rfl (h1 t)
  | escaped t => cases h' with
    | escaped => rfl
    | annotated _ _ _ _ h2 => exact absurd rfl (h2 t)
  | annotated _ _ _ h1 h2 h => cases h' with
    | hidden t => exact absurd rfl (h1 t)
    | escaped t => exact absurd rfl (h2 t)
    | annotated _ _ _ _ _ h' =>
      obtain ⟨rfl, rfl⟩ := h.unique h'
      rfl

theorem Spec.Segmented.source {l segs last} (h : Segmented l segs last) :
    (Reading.annotated segs last).source = l := by
  induction h with
  | done => simp [Reading.source]
  | mark pre m rest k i segs last hm hl ht ih =>
    simp only [Reading.source] at ih
    simp only [Reading.source, List.map_cons, List.flatten_cons, List.append_assoc, ih]
    simp [hm.2]

theorem Spec.Reads.source {l r} (h : Reads l r) : r.source = l := by
  cases h with
  | hidden => rfl
  | escaped => rfl
  | annotated _ _ _ _ _ h => exact h.source

/-- Annotations recorded by the markers `segs` of line `lineNo`. -/
def foldSegs (a : Annots) (idx lineNo : Nat) : List Seg → Annots
  | [] => a
  | (p, k, i) :: t => foldSegs (addMarker a (idx + bytes p) lineNo k i) (idx + bytes p) lineNo t

theorem markerLoop_spec (a : Annots) (idx lineNo : Nat) (line : List Char) :
    ∃ segs last, Segmented line segs last ∧
      markerLoop a idx lineNo line =
        (foldSegs a idx lineNo segs, idx + bytes (Reading.annotated segs last).cleaned,
          segs.map (·.1) ++ [last]) := by
  fun_induction markerLoop a idx lineNo line with
  | case1 a idx line pre k interior rest h idx' r ih =>
    obtain ⟨m, hm, rfl, hl⟩ := findMarker_some h
    obtain ⟨segs, last, hs, he⟩ := ih
    refine ⟨(pre, k, interior) :: segs, last, .mark _ _ _ _ _ _ _ hm hl hs, ?_⟩
    simp only [r, he, foldSegs, idx', Reading.cleaned, List.map_cons, List.flatten_cons,
      List.cons_append, bytes_append]
    simp [Nat.add_assoc]
  | case2 a idx line h =>
    exact ⟨[], line, .done _ (findMarker_none h), by simp [foldSegs, Reading.cleaned]⟩

/-- Annotations recorded by one line. -/
def foldReading (a : Annots) (idx lineNo : Nat) : Reading → Annots
  | .hidden _ => { a with hiddenLines := a.hiddenLines ++ [lineNo] }
  | .escaped _ => a
  | .annotated segs _ => foldSegs a idx lineNo segs

theorem processLine_spec (a : Annots) (idx lineNo : Nat) (line : List Char) :
    ∃ r frs, Reads line r ∧ frs.flatten = r.cleaned ∧
      processLine a idx lineNo line = (foldReading a idx lineNo r, idx + bytes r.cleaned, frs) := by
  unfold processLine
  split
  · rename_i suffix
    exact ⟨.hidden suffix, [suffix], .hidden _, by simp [Reading.cleaned], rfl⟩
  · rename_i suffix
    refine ⟨.escaped suffix, [['#'], suffix], .escaped _, by simp [Reading.cleaned], ?_⟩
    simp only [foldReading, Reading.cleaned, bytes_cons, bytes_nil]
    simp [Nat.add_assoc]
  · rename_i h1 h2
    obtain ⟨segs, last, hs, he⟩ := markerLoop_spec a idx lineNo line
    refine ⟨.annotated segs last, segs.map (·.1) ++ [last],
      .annotated _ _ _ (fun t => ?_) (fun t => ?_) hs, by simp [Reading.cleaned], he⟩
    · intro h; exact h1 t h
    · intro h; exact h2 t h

/-- Annotations recorded by all lines. -/
def foldReadings (a : Annots) (idx lineIdx : Nat) : List Reading → Annots
  | [] => a
  | r :: rs =>
    foldReadings (foldReading a idx (lineIdx + 1) r) (idx + bytes r.cleaned + 1) (lineIdx + 1) rs

theorem processLines_spec (ls : List (List Char)) (a : Annots) (idx lineIdx : Nat) :
    ∃ rs frs, List.Forall₂ Reads ls rs ∧ frs.map List.flatten = rs.map Reading.cleaned ∧
      processLines a idx lineIdx ls = (foldReadings a idx lineIdx rs, frs) := by
  induction ls generalizing a idx lineIdx with
  | nil => exact ⟨[], [], .nil, rfl, rfl⟩
  | cons l ls ih =>
    obtain ⟨r, fr, hr, hf, he⟩ := processLine_spec a idx (lineIdx + 1) l
    obtain ⟨rs, frs, hrs, hfs, hes⟩ :=
      ih (foldReading a idx (lineIdx + 1) r) (idx + bytes r.cleaned + 1) (lineIdx + 1)
    refine ⟨r :: rs, fr :: frs, .cons hr hrs, by simp [hf, hfs], ?_⟩
    simp [processLines, foldReadings, he, hes]

theorem joinOutput_eq (frs : List (List (List Char))) :
    joinOutput frs = joinWith '\n' (frs.map List.flatten) := by
  induction frs with
  | nil => rfl
  | cons f t ih =>
    cases t with
    | nil => rfl
    | cons g t => simp only [joinOutput, List.map_cons, joinWith] at ih ⊢; rw [ih]

/-! ### The recorded annotations -/

theorem foldSegs_hidden (a idx n segs) : (foldSegs a idx n segs).hiddenLines = a.hiddenLines := by
  induction segs generalizing a idx with
  | nil => rfl
  | cons s t ih =>
    obtain ⟨p, k, i⟩ := s
    simp only [foldSegs, ih, addMarker]
    grind

theorem foldSegs_state (segs : List Seg) (a : Annots) (n : Nat) (acc : List Char) (pre : Nat) :
    (foldSegs a (pre + bytes acc) n segs).stateLocations =
      a.stateLocations ++ (segPrefixes acc segs).map (fun s => pre + bytes s) := by
  induction segs generalizing a acc with
  | nil => simp [foldSegs, segPrefixes]
  | cons s t ih =>
    obtain ⟨p, k, i⟩ := s
    have e : pre + bytes acc + bytes p = pre + bytes (acc ++ p) := by
      rw [bytes_append]; omega
    simp only [foldSegs, e, ih, segPrefixes, addMarker]
    cases k <;> simp <;> grind

theorem foldReadings_state (rs : List Reading) (a : Annots) (li : Nat) (acc : List Char) :
    (foldReadings a (bytes acc) li rs).stateLocations =
      a.stateLocations ++ (docPrefixes acc rs).map bytes := by
  induction rs generalizing a li acc with
  | nil => simp [foldReadings, docPrefixes]
  | cons r rs ih =>
    have e : bytes acc + bytes r.cleaned + 1 = bytes (acc ++ r.cleaned ++ ['\n']) := by
      simp only [bytes_append, bytes_cons, bytes_nil]; rfl
    simp only [foldReadings, e, ih, docPrefixes, List.map_append, List.map_map]
    cases r with
    | hidden t => simp [foldReading, Reading.prefixes]
    | escaped t => simp [foldReading, Reading.prefixes]
    | annotated segs last =>
      have := foldSegs_state segs a (li + 1) [] (bytes acc)
      simp only [bytes_nil, Nat.add_zero] at this
      simp only [foldReading, this, Reading.prefixes, List.append_assoc]
      congr 2
      apply List.map_congr_left
      intro s _
      simp [bytes_append]

theorem foldSegs_boundary (segs : List Seg) (a : Annots) (idx n : Nat) :
    (foldSegs a idx n segs).boundaryLines =
      a.boundaryLines ++ (segs.filter (·.2.1 = .boundaries)).map (fun _ => n) := by
  induction segs generalizing a idx with
  | nil => simp [foldSegs]
  | cons s t ih =>
    obtain ⟨p, k, i⟩ := s
    simp only [foldSegs, ih, addMarker]
    cases k <;> simp <;> grind

theorem foldSegs_stepper (segs : List Seg) (a : Annots) (idx n : Nat) :
    (foldSegs a idx n segs).stepperLines =
      a.stepperLines ++ (segs.filter (fun s => s.2.1 = .stepper ∧
        (cfgGet (configOf s.2.2) "focus".toList).isSome)).map (fun _ => n) := by
  induction segs generalizing a idx with
  | nil => simp [foldSegs]
  | cons s t ih =>
    obtain ⟨p, k, i⟩ := s
    simp only [foldSegs, ih, addMarker]
    cases k <;> simp <;> grind

/-- Path matchers of one marker. -/
def segMatchers (s : Seg) : List PathMatcher :=
  if s.2.1 = .stepper then
    ((cfgGet (configOf s.2.2) "paths".toList).toList.map .literal) ++
    ((cfgGet (configOf s.2.2) "rxpaths".toList).toList.map .regex)
  else []

theorem foldSegs_paths (segs : List Seg) (a : Annots) (idx n : Nat) :
    (foldSegs a idx n segs).stepperPaths =
      a.stepperPaths ++ (segs.flatMap segMatchers).map (fun m => (n, m)) := by
  induction segs generalizing a idx with
  | nil => simp [foldSegs]
  | cons s t ih =>
    obtain ⟨p, k, i⟩ := s
    simp only [foldSegs, ih, addMarker]
    cases k
    · simp [segMatchers]
    · simp [segMatchers]
      cases cfgGet (configOf i) ['p', 'a', 't', 'h', 's'] <;>
        cases cfgGet (configOf i) ['r', 'x', 'p', 'a', 't', 'h', 's'] <;> simp <;> grind
    · simp [segMatchers]

/-- The pieces of a reading (none for hidden and escaped lines). -/
def Spec.Reading.segs : Reading → List Seg
  | .annotated segs _ => segs
  | _ => []

/-- Whether a reading is a hidden line. -/
def Spec.Reading.isHidden : Reading → Bool
  | .hidden _ => true
  | _ => false

theorem foldReadings_hidden (rs : List Reading) (a : Annots) (idx li : Nat) :
    (foldReadings a idx li rs).hiddenLines =
      a.hiddenLines ++ ((rs.zipIdx (li + 1)).filter (·.1.isHidden)).map (·.2) := by
  induction rs generalizing a idx li with
  | nil => simp [foldReadings]
  | cons r rs ih =>
    simp only [foldReadings, ih, List.zipIdx_cons]
    cases r <;> simp [foldReading, Reading.isHidden, foldSegs_hidden]

theorem foldReadings_boundary (rs : List Reading) (a : Annots) (idx li : Nat) :
    (foldReadings a idx li rs).boundaryLines =
      a.boundaryLines ++ (rs.zipIdx (li + 1)).flatMap fun x =>
        (x.1.segs.filter (·.2.1 = .boundaries)).map (fun _ => x.2) := by
  induction rs generalizing a idx li with
  | nil => simp [foldReadings]
  | cons r rs ih =>
    simp only [foldReadings, ih, List.zipIdx_cons]
    cases r <;> simp [foldReading, Reading.segs, foldSegs_boundary]

theorem foldReadings_stepper (rs : List Reading) (a : Annots) (idx li : Nat) :
    (foldReadings a idx li rs).stepperLines =
      a.stepperLines ++ (rs.zipIdx (li + 1)).flatMap fun x =>
        (x.1.segs.filter (fun s => s.2.1 = .stepper ∧
        (cfgGet (configOf s.2.2) "focus".toList).isSome)).map (fun _ => x.2) := by
  induction rs generalizing a idx li with
  | nil => simp [foldReadings]
  | cons r rs ih =>
    simp only [foldReadings, ih, List.zipIdx_cons]
    cases r <;> simp [foldReading, Reading.segs, foldSegs_stepper]

theorem foldReadings_paths (rs : List Reading) (a : Annots) (idx li : Nat) :
    (foldReadings a idx li rs).stepperPaths =
      a.stepperPaths ++ (rs.zipIdx (li + 1)).flatMap fun x =>
        (x.1.segs.flatMap segMatchers).map (fun m => (x.2, m)) := by
  induction rs generalizing a idx li with
  | nil => simp [foldReadings]
  | cons r rs ih =>
    simp only [foldReadings, ih, List.zipIdx_cons]
    cases r <;> simp [foldReading, Reading.segs, foldSegs_paths]

/-! ### Splitting and joining -/

theorem splitOn_ne_nil (c : Char) (s : List Char) : splitOn c s ≠ [] := by
  cases s with
  | nil => simp [splitOn]
  | cons x t =>
    unfold splitOn
    split
    · simp
    · split <;> simp

theorem joinWith_cons_cons (c x : Char) (p : List Char) (ps : List (List Char)) :
    joinWith c ((x :: p) :: ps) = x :: joinWith c (p :: ps) := by
  cases ps <;> simp [joinWith]

theorem joinWith_nil_cons (c : Char) {ps : List (List Char)} (h : ps ≠ []) :
    joinWith c ([] :: ps) = c :: joinWith c ps := by
  cases ps <;> simp_all [joinWith]

theorem joinWith_splitOn (c : Char) (s : List Char) : joinWith c (splitOn c s) = s := by
  induction s with
  | nil => rfl
  | cons x t ih =>
    unfold splitOn
    split
    · rename_i h
      rw [joinWith_nil_cons _ (splitOn_ne_nil _ _), ih, h]
    · split
      · rename_i h; exact absurd h (splitOn_ne_nil _ _)
      · rename_i h; rw [joinWith_cons_cons, ← h, ih]

theorem splitOn_not_mem (c : Char) (s : List Char) : ∀ e ∈ splitOn c s, c ∉ e := by
  induction s with
  | nil => simp [splitOn]
  | cons x t ih =>
    unfold splitOn
    split
    · simpa using ih
    · split
      · simp; grind
      · rename_i hx _ p ps h
        rw [h] at ih
        simp only [List.mem_cons, forall_eq_or_imp] at ih ⊢
        refine ⟨?_, ih.2⟩
        rintro (rfl | h)
        · exact hx rfl
        · exact ih.1 h

theorem splitOn_joinWith (c : Char) (ps : List (List Char)) (hne : ps ≠ [])
    (h : ∀ e ∈ ps, c ∉ e) : splitOn c (joinWith c ps) = ps := by
  induction ps with
  | nil => exact absurd rfl hne
  | cons p ps ih =>
    have hp := h p (by simp)
    have hps : ∀ e ∈ ps, c ∉ e := fun e he => h e (by simp [he])
    clear h
    induction p with
    | nil =>
      cases ps with
      | nil => rfl
      | cons q qs =>
        rw [joinWith_nil_cons _ (by simp)]
        unfold splitOn
        rw [if_pos rfl, ih (by simp) hps]
    | cons x p ihp =>
      rw [joinWith_cons_cons]
      unfold splitOn
      simp only [List.mem_cons, not_or] at hp
      rw [if_neg (fun e => hp.1 e.symm), ihp (by simp) hp.2]

theorem splitOnce_some {c : Char} {s a b : List Char} :
    splitOnce c s = some (a, b) ↔ c ∉ a ∧ s = a ++ c :: b := by
  induction s generalizing a with
  | nil => simp [splitOnce]
  | cons x t ih =>
    unfold splitOnce
    split
    · rename_i h
      subst h
      constructor
      · rintro h; simp only [Option.some.injEq, Prod.mk.injEq] at h
        obtain ⟨rfl, rfl⟩ := h; simp
      · rintro ⟨h1, h2⟩
        cases a with
        | nil => simpa using h2
        | cons y a => simp at h1 h2; exact absurd h2.1 h1.1
    · rename_i hx
      simp only [Option.map_eq_some_iff, Prod.mk.injEq, Prod.exists]
      constructor
      · rintro ⟨a', b', h, rfl, rfl⟩
        obtain ⟨h1, h2⟩ := ih.1 h
        exact ⟨by simp [h1]; exact fun e => hx e.symm, by simp [h2]⟩
      · rintro ⟨h1, h2⟩
        cases a with
        | nil => simp at h2; exact absurd h2.1 hx
        | cons y a =>
          simp at h1 h2
          obtain ⟨rfl, h2⟩ := h2
          exact ⟨a, b, ih.2 ⟨h1.2, h2⟩, rfl, rfl⟩

theorem splitOnce_none {c : Char} {s : List Char} : splitOnce c s = none ↔ c ∉ s := by
  induction s with
  | nil => simp [splitOnce]
  | cons x t ih =>
    unfold splitOnce
    split
    · simp_all
    · simp [ih]; grind

/-- The key and value of an entry. -/
def entryOf (s : List Char) : List Char × List Char :=
  match splitOnce ':' s with
  | some (a, b) => (a, b)
  | none => (s, [])

theorem entryOf_iff {e key value} : entryOf e = (key, value) ↔ OptionIs.Entry e key value := by
  unfold entryOf OptionIs.Entry
  cases h : splitOnce ':' e with
  | none =>
    rw [splitOnce_none] at h
    simp only [Prod.mk.injEq]
    constructor
    · rintro ⟨rfl, rfl⟩; exact ⟨h, .inl ⟨rfl, rfl⟩⟩
    · rintro ⟨_, ⟨rfl, rfl⟩ | rfl⟩
      · exact ⟨rfl, rfl⟩
      · simp at h
  | some x =>
    obtain ⟨a, b⟩ := x
    have := splitOnce_some.1 h
    simp only [Prod.mk.injEq]
    constructor
    · rintro ⟨rfl, rfl⟩; exact ⟨this.1, .inr this.2⟩
    · rintro ⟨hk, ⟨rfl, rfl⟩ | he⟩
      · rw [this.2] at hk; simp at hk
      · have := splitOnce_some.2 ⟨hk, he⟩
        rw [h] at this
        simpa using this

theorem configOf_eq (i : List Char) :
    configOf i = ((splitOn ',' i).filter (· ≠ [])).map entryOf := rfl

theorem cfgGet_iff {i key value : List Char} :
    cfgGet (configOf i) key = some value ↔ OptionIs i key value := by
  rw [configOf_eq, cfgGet, Option.map_eq_some_iff]
  constructor
  · rintro ⟨⟨k, v⟩, hf, rfl⟩
    rw [List.find?_eq_some_iff_append] at hf
    obtain ⟨hk, as, bs, he, has⟩ := hf
    simp only [decide_eq_true_eq] at hk
    subst hk
    have he : ((splitOn ',' i).filter (· ≠ [])).map entryOf = bs.reverse ++ (k, v) :: as.reverse := by
      have := congrArg List.reverse he
      simpa using this
    obtain ⟨l1, l2, h1, h2, h3⟩ := List.map_eq_append_iff.1 he
    obtain ⟨e, l3, rfl, h4, h5⟩ := List.map_eq_cons_iff.1 h3
    obtain ⟨b1, b2, hs, hb1, hb2⟩ := List.filter_eq_append_iff.1 h1
    obtain ⟨c1, c2, rfl, hc1, hc2, hc3⟩ := List.filter_eq_cons_iff.1 hb2
    refine ⟨b1 ++ c1, c2, e, ?_, ?_, ?_, entryOf_iff.1 h4, ?_⟩
    · rw [← joinWith_splitOn ',' i, hs]; simp
    · have := splitOn_not_mem ',' i
      rw [hs] at this
      simpa using this
    · simpa using hc2
    · intro x hx hne w hw
      have hw := entryOf_iff.2 hw
      have hx3 : x ∈ l3 := by rw [← hc3]; simp [hx, hne]
      have : (k, w) ∈ as.reverse := by
        rw [← h5, List.mem_map]; exact ⟨x, hx3, hw⟩
      have := has (k, w) (by simpa using this)
      simp at this
  · rintro ⟨before, after, e, hc, hno, hne, hent, haft⟩
    have hs : splitOn ',' i = before ++ e :: after := by
      rw [hc, splitOn_joinWith _ _ (by simp) hno]
    refine ⟨(key, value), ?_, rfl⟩
    rw [List.find?_eq_some_iff_append]
    refine ⟨by simp, ((after.filter (· ≠ [])).map entryOf).reverse,
      ((before.filter (· ≠ [])).map entryOf).reverse, ?_, ?_⟩
    · rw [hs]
      simp [hne, entryOf_iff.2 hent]
    · intro ⟨k, v⟩ hm
      simp only [List.mem_reverse, List.mem_map, List.mem_filter] at hm
      obtain ⟨x, ⟨hx, hxne⟩, hxe⟩ := hm
      simp only [Bool.not_eq_true', decide_eq_false_iff_not]
      rintro rfl
      exact haft x hx (by simpa using hxne) v (entryOf_iff.1 hxe)

/-! ### Lines -/

theorem first_occurrence {c : Char} {s : List Char} (h : c ∈ s) :
    ∃ l r, s = l ++ c :: r ∧ c ∉ l := by
  induction s with
  | nil => simp at h
  | cons x t ih =>
    by_cases hx : x = c
    · exact ⟨[], t, by simp [hx], by simp⟩
    · obtain ⟨l, r, rfl, hl⟩ := ih (by simpa [Ne.symm hx] using h)
      exact ⟨x :: l, r, rfl, by simp [hl]; exact fun e => hx e.symm⟩

theorem splitInclusive_lined (code : List Char) :
    (∀ l r, code = l ++ '\n' :: r → '\n' ∉ l → splitInclusive code = (l ++ ['\n']) :: splitInclusive r)
    ∧ ('\n' ∉ code → code ≠ [] → splitInclusive code = [code]) := by
  induction code with
  | nil => simp
  | cons x t ih =>
    constructor
    · intro l r he hl
      cases l with
      | nil =>
        simp only [List.nil_append, List.cons.injEq] at he
        obtain ⟨rfl, rfl⟩ := he
        simp [splitInclusive]
      | cons y l =>
        simp only [List.cons_append, List.cons.injEq] at he
        obtain ⟨rfl, rfl⟩ := he
        simp only [List.mem_cons, not_or] at hl
        rw [splitInclusive, if_neg (fun e => hl.1 e.symm), ih.1 l r rfl hl.2]
        rfl
    · intro hn _
      simp only [List.mem_cons, not_or] at hn
      unfold splitInclusive
      rw [if_neg (fun e => hn.1 e.symm)]
      cases t with
      | nil => rfl
      | cons y t => rw [ih.2 hn.2 (by simp)]

theorem stripEol_lf {l : List Char} (h : l.getLast? ≠ some '\r') : stripEol (l ++ ['\n']) = l := by
  unfold stripEol
  simp only [List.getLast?_append, List.getLast?_singleton, Option.some_or, List.dropLast_concat]

theorem stripEol_crlf (l : List Char) : stripEol (l ++ ['\r'] ++ ['\n']) = l := by
  unfold stripEol
  simp only [List.getLast?_append, List.getLast?_singleton, Option.some_or, List.dropLast_concat]

theorem stripEol_last {l : List Char} (h : '\n' ∉ l) : stripEol l = l := by
  unfold stripEol
  split
  · rename_i h'
    exact absurd (List.mem_of_getLast? h') h
  · rfl

theorem Spec.Lined.eq_lines {code ls} (h : Lined code ls) : ls = lines code := by
  induction h with
  | nil => rfl
  | last l hne hn =>
    simp [lines, (splitInclusive_lined l).2 hn hne, stripEol_last hn]
  | lf l rest ls hn hr h ih =>
    simp [lines, (splitInclusive_lined _).1 l rest rfl hn, stripEol_lf hr, ih]
  | crlf l rest ls hn h ih =>
    have := (splitInclusive_lined _).1 (l ++ ['\r']) rest rfl (by simp [hn])
    simp only [List.append_assoc, List.cons_append, List.nil_append] at this
    have h2 := stripEol_crlf l
    simp only [List.append_assoc, List.cons_append, List.nil_append] at h2
    simp [lines, this, h2, ih]

theorem Forall₂_unique {ls : List (List Char)} {rs rs' : List Reading}
    (h : List.Forall₂ Reads ls rs) (h' : List.Forall₂ Reads ls rs') : rs = rs' := by
  induction h generalizing rs' with
  | nil => cases h'; rfl
  | cons h _ ih => cases h' with
    | cons h' t' => rw [h.unique h', ih t']

theorem lines_lined (code : List Char) : Lined code (lines code) := by
  generalize hn : code.length = n
  induction n using Nat.strongRecOn generalizing code with
  | ind n ih =>
    by_cases hmem : '\n' ∈ code
    · obtain ⟨l, r, rfl, hl⟩ := first_occurrence hmem
      unfold lines
      rw [(splitInclusive_lined _).1 l r rfl hl, List.map_cons]
      have hr := ih r.length (by rw [← hn]; simp; omega) r rfl
      by_cases hcr : l.getLast? = some '\r'
      · obtain ⟨l', rfl⟩ := List.getLast?_eq_some_iff.1 hcr
        rw [stripEol_crlf]
        have := Lined.crlf l' r (lines r) (fun h => hl (by simp [h])) hr
        simpa [lines] using this
      · rw [stripEol_lf hcr]
        exact Lined.lf l r _ hl hcr hr
    · by_cases hne : code = []
      · subst hne; exact .nil
      · unfold lines
        rw [(splitInclusive_lined _).2 hmem hne]
        simp only [List.map_cons, List.map_nil, stripEol_last hmem]
        exact .last _ hne hmem

end Verif.Annotations
