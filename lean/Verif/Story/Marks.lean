import Verif.Story.Recursion
import Verif.Frontend.TraceProps
/-!
# C127: marks in a program

A mark in an interpreted program (the `` `[]` `` of a block) has the same label as one of the diagrams
(`filterSteps` and `renderInterpreter`, interpreter.tsx:762-856; `Frontend/Trace`). Which state of the execution is this?
-/
namespace Verif.Story
open Verif.Cfg Verif.Mapper Verif.Trace.Spec Verif.Story.Spec
open Verif.Frontend (Covers Latest InDoc linecol TStep renderInterpreter)

variable {σ E Vars Heap : Type}

/-! ## Specification -/

/-- The text in the editor: where the functions are, and where a place begins. -/
structure Text where
  body : Nat → Nat × Nat
  start : Span → Nat

/-- The mark is in the innermost function of the state, behind the beginning of the place where it is. -/
def covers (T : Text) (m : Nat) (x : σ × CallStack) : Prop :=
  ∃ i sp, x.2.getLast? = some (i, some sp) ∧ (T.body i).1 ≤ m ∧ m ≤ (T.body i).2 ∧ T.start sp < m

/-- `x` is the last state with the property. -/
def IsLast {α : Type} (P : α → Prop) (xs : List α) (x : α) : Prop :=
  ∃ pre post, xs = pre ++ x :: post ∧ P x ∧ ∀ y ∈ post, ¬ P y

/-- Functions that are shown at the same place are in the same place of the text (they are instances of one function). -/
def SameText (T : Text) (xs : List (σ × CallStack)) : Prop :=
  ∀ x ∈ xs, ∀ y ∈ xs, ∀ i j sp, x.2.getLast? = some (i, some sp) → y.2.getLast? = some (j, some sp) → T.body i = T.body j

/-- `page` is what the page reads for a diagram: lines and columns of the text. -/
def OnPage (doc : List Char) (T : Text) (page : Group.Step Span (Nat × Vars) Heap → TStep) : Prop :=
  ∀ d fr, d.frames.getLast? = some fr → ∃ f, (page d).frames.getLast? = some f ∧
    linecol doc f.bodyStart = some (T.body fr.payload.1).1 ∧ linecol doc f.bodyEnd = some (T.body fr.payload.1).2 ∧
    linecol doc f.locStart = some (T.start fr.location) ∧ ∃ e, linecol doc f.locEnd = some e

/-- The visits of a function, in order. -/
def Visits.toList : Visits σ → List (Option Span × Parts σ)
  | .done => []
  | .visit place parts rest => (place, parts) :: Visits.toList rest

mutual
/-- The functions that are called during a visit, directly or not. -/
def Parts.calls : Parts σ → List Nat
  | .done => []
  | .work _ _ rest => Parts.calls rest
  | .call _ _ callee body _ _ rest => callee :: (Visits.calls body ++ Parts.calls rest)
  | .ends _ _ callee body => callee :: Visits.calls body
def Visits.calls : Visits σ → List Nat
  | .done => []
  | .visit _ parts rest => Parts.calls parts ++ Visits.calls rest
end

/-- The state in which a visit ends; there is none if the execution ends in a function that was called. -/
def Parts.finish : Option σ → Parts σ → Option σ
  | last, .done => last
  | _, .work _ s' rest => Parts.finish (some s') rest
  | _, .call _ _ _ _ _ t' rest => Parts.finish (some t') rest
  | _, .ends .. => none

/-! ## Lists -/

theorem joined_sub (xs : List (σ × CallStack)) : ∀ x ∈ joined xs, x ∈ xs := by
  induction xs with
  | nil => simp [joined]
  | cons a xs ih =>
    cases xs with
    | nil => simp [joined]
    | cons b xs =>
      intro x hx
      simp only [joined] at hx
      split at hx
      · exact List.mem_cons_of_mem _ (ih x hx)
      · rcases List.mem_cons.1 hx with rfl | hx
        · exact List.mem_cons_self ..
        · exact List.mem_cons_of_mem _ (ih x hx)

theorem isLast_joined {P : σ × CallStack → Prop} {xs : List (σ × CallStack)} {x : σ × CallStack}
    (hP : ∀ a ∈ xs, ∀ b ∈ xs, top a = top b → P a → P b) (h : IsLast P xs x) : IsLast P (joined xs) x := by
  obtain ⟨pre, post, rfl, hx, hp⟩ := h
  induction pre with
  | nil =>
    cases post with
    | nil => exact ⟨[], [], rfl, hx, by simp⟩
    | cons y post =>
      have hne : top x ≠ top y := fun he =>
        hp y (List.mem_cons_self ..) (hP x (by simp) y (by simp) he hx)
      refine ⟨[], joined (y :: post), by simp [joined, hne], hx, fun z hz => hp z (joined_sub _ z hz)⟩
  | cons a pre ih =>
    have ih := ih (fun b hb c hc => hP b (List.mem_cons_of_mem _ hb) c (List.mem_cons_of_mem _ hc))
    rw [List.cons_append]
    cases hl : pre ++ x :: post with
    | nil => simp at hl
    | cons b l =>
      rw [hl] at ih
      obtain ⟨pre', post', h1, h2, h3⟩ := ih
      simp only [joined]
      split
      · exact ⟨pre', post', h1, h2, h3⟩
      · exact ⟨a :: pre', post', by rw [h1]; rfl, h2, h3⟩

theorem isLast_exists {α : Type} {P : α → Prop} {xs : List α} (h : ∃ x ∈ xs, P x) : ∃ x, IsLast P xs x := by
  induction xs with
  | nil => simp at h
  | cons a xs ih =>
    by_cases hx : ∃ x ∈ xs, P x
    · obtain ⟨x, pre, post, h1, h2, h3⟩ := ih hx
      exact ⟨x, a :: pre, post, by rw [h1]; rfl, h2, h3⟩
    · obtain ⟨x, hm, hp⟩ := h
      rcases List.mem_cons.1 hm with rfl | hm
      · exact ⟨x, [], xs, rfl, hp, fun y hy hpy => hx ⟨y, hy, hpy⟩⟩
      · exact absurd ⟨x, hm, hp⟩ hx

theorem isLast_unique {α : Type} {P : α → Prop} {xs : List α} {x y : α} (h : IsLast P xs x) (h' : IsLast P xs y) :
    x = y := by
  obtain ⟨p, q, rfl, hx, hq⟩ := h
  obtain ⟨p', q', h1, hy, hq'⟩ := h'
  rcases List.append_eq_append_iff.1 h1 with ⟨a, h2, h3⟩ | ⟨a, h2, h3⟩
  · cases a with
    | nil => simp only [List.nil_append, List.cons.injEq] at h3; exact h3.1
    | cons b a =>
      simp only [List.cons_append, List.cons.injEq] at h3
      exact absurd hy (hq y (by rw [h3.2]; simp))
  · cases a with
    | nil => simp only [List.nil_append, List.cons.injEq] at h3; exact h3.1.symm
    | cons b a =>
      simp only [List.cons_append, List.cons.injEq] at h3
      exact absurd hx (hq' x (by rw [h3.2]; simp))

/-! ## The diagram of a mark -/

theorem shows_last {m : Machine σ E Vars Heap} {x : σ × CallStack} {d : Group.Step Span (Nat × Vars) Heap}
    (h : Shows m x d) (i : Nat) (sp : Span) :
    x.2.getLast? = some (i, some sp) ↔ ∃ fr, d.frames.getLast? = some fr ∧ fr.payload.1 = i ∧ fr.location = sp := by
  obtain ⟨-, h1, -, h2⟩ := h
  rw [List.getLast?_eq_getElem?, List.getLast?_eq_getElem?, h1]
  cases hu : x.2[x.2.length - 1]? with
  | none =>
    have : d.frames[x.2.length - 1]? = none := by
      rw [List.getElem?_eq_none_iff] at hu ⊢
      omega
    simp [this]
  | some u =>
    obtain ⟨hk, -⟩ := List.getElem?_eq_some_iff.1 hu
    have hfr := List.getElem?_eq_getElem (l := d.frames) (i := x.2.length - 1) (by omega)
    obtain ⟨h3, -⟩ := h2 _ _ _ hu hfr
    rw [hfr, h3]
    simp

theorem covers_page {m : Machine σ E Vars Heap} {doc : List Char} {T : Text}
    {page : Group.Step Span (Nat × Vars) Heap → TStep} (hpage : OnPage doc T page) {x : σ × CallStack}
    {d : Group.Step Span (Nat × Vars) Heap} (h : Shows m x d) (hne : d.frames ≠ []) (k : Nat) :
    (Covers doc k (page d) ↔ covers T k x) ∧ InDoc doc (page d) := by
  obtain ⟨fr, hfr⟩ : ∃ fr, d.frames.getLast? = some fr := by
    cases hl : d.frames.getLast? with
    | none => exact absurd (List.getLast?_eq_none_iff.1 hl) hne
    | some fr => exact ⟨fr, rfl⟩
  obtain ⟨f, h1, h2, h3, h4, e, h5⟩ := hpage d fr hfr
  refine ⟨?_, f, h1, ⟨_, h2⟩, ⟨_, h3⟩, ⟨_, h4⟩, ⟨_, h5⟩⟩
  have hx := (shows_last h fr.payload.1 fr.location).2 ⟨fr, hfr, rfl, rfl⟩
  constructor
  · rintro ⟨f', a1, a, b, c, a2, a3, a4, a5, a6, a7⟩
    rw [h1] at a1; cases a1
    rw [h2] at a2; cases a2
    rw [h3] at a3; cases a3
    rw [h4] at a4; cases a4
    exact ⟨_, _, hx, a5, a6, a7⟩
  · rintro ⟨i, sp, a1, a2, a3, a4⟩
    rw [hx] at a1
    simp only [Option.some.injEq, Prod.mk.injEq] at a1
    obtain ⟨rfl, rfl⟩ := a1
    exact ⟨f, h1, _, _, _, h2, h3, h4, a2, a3, a4⟩

theorem latest_isLast {m : Machine σ E Vars Heap} {doc : List Char} {T : Text}
    {page : Group.Step Span (Nat × Vars) Heap → TStep} (hpage : OnPage doc T page) {xs : List (σ × CallStack)}
    {ds : List (Group.Step Span (Nat × Vars) Heap)} (h : List.Forall₂ (Shows m) xs ds)
    (hne : ∀ d ∈ ds, d.frames ≠ []) {k i : Nat} (hl : Latest doc (ds.map page) k i) :
    ∃ x d, IsLast (covers T k) xs x ∧ ds[i]? = some d ∧ Shows m x d := by
  obtain ⟨⟨s, h1, h2⟩, h3⟩ := hl
  rw [List.getElem?_map, Option.map_eq_some_iff] at h1
  obtain ⟨d, h4, rfl⟩ := h1
  obtain ⟨x, h5, h6⟩ := forall₂_get h h4
  refine ⟨x, d, ?_, h4, h6⟩
  obtain ⟨hi, hxe⟩ := List.getElem?_eq_some_iff.1 h5
  refine ⟨xs.take i, xs.drop (i + 1), ?_, ?_, ?_⟩
  · rw [← hxe, ← List.drop_eq_getElem_cons hi, List.take_append_drop]
  · exact (covers_page hpage h6 (hne d (List.mem_of_getElem? h4)) k).1.1 h2
  · intro y hy hc
    obtain ⟨j, hj, hje⟩ := List.mem_iff_getElem.1 hy
    rw [List.getElem_drop] at hje
    have hlen := forall₂_length h
    rw [List.length_drop] at hj
    have hd := List.getElem?_eq_getElem (l := ds) (i := i + 1 + j) (by omega)
    obtain ⟨y', h7, h8⟩ := forall₂_get h hd
    rw [List.getElem?_eq_getElem (by omega), hje, Option.some.injEq] at h7
    subst h7
    exact h3 (i + 1 + j) _ (by omega) (by rw [List.getElem?_map, hd]; rfl)
      ((covers_page hpage h8 (hne _ (List.getElem_mem _)) k).1.2 hc)

/-- **C127.** In every program that runs to its end or into undefined behaviour and whose marks each have a state behind
which they lie, the page draws one diagram per mark, with its label; it shows the last state in the story of the program
whose innermost function contains the mark and is at a place that begins before it. -/
theorem C127_mark (m : Machine σ E Vars Heap) (isUb : E → Bool) (fns : Nat → Fn) (order : Nat → List Nat)
    (hw : WellFormed fns order) (S : Spans) (head : Nat → Span) (p : Program σ) (hp : p.True m fns S head) (s : σ)
    (end_ : Trace.End E) (hx : Exec m.next s p.path end_)
    (hread : ∀ x ∈ p.path, ∀ f ∈ userFrames m x.2, ∃ v, m.vars x.2 f.1 = .ok v)
    (r : Option E) (hr : result isUb end_ = some r)
    (doc : List Char) (T : Text) (page : Group.Step Span (Nat × Vars) Heap → TStep) (hpage : OnPage doc T page)
    (hT : SameText T (p.stretches head)) (marks : List Nat) (hm : marks ≠ [])
    (hc : ∀ k ∈ marks, ∃ x ∈ p.stretches head, Seen x.2 = true ∧ covers T k x) :
    ∃ fuel out mk dg, interpret m isUb fns order S fuel s = some out ∧
      renderInterpreter doc (out.steps.map page) out.result.isSome marks = .ok (mk, dg) ∧
      (mk.map (·.at_)).Perm marks ∧ dg.length = mk.length ∧
      ∀ (i : Nat) mark diagram, mk[i]? = some mark → dg[i]? = some diagram → mark.label = diagram.label ∧
        ∃ x d, IsLast (covers T mark.at_) ((p.stretches head).filter fun x => Seen x.2) x ∧
          diagram.step = page d ∧ Shows m x d := by
  obtain ⟨fuel, out, h1, h2, h3⟩ := C126_story m isUb fns order hw S head p hp s end_ hx hread r hr
  have hsub : ∀ x ∈ (p.stretches head).filter (fun x => Seen x.2), x ∈ p.stretches head ∧ Seen x.2 = true := by
    intro x hx; exact List.mem_filter.1 hx
  have hcong : ∀ k, ∀ a ∈ (p.stretches head).filter (fun x => Seen x.2),
      ∀ b ∈ (p.stretches head).filter (fun x => Seen x.2), top a = top b → covers T k a → covers T k b := by
    intro k a ha b hb he ⟨i, sp, c1, c2, c3, c4⟩
    unfold top at he
    rw [c1, Option.map_some] at he
    cases hl : b.2.getLast? with
    | none => rw [hl] at he; simp at he
    | some u =>
      obtain ⟨j, q⟩ := u
      rw [hl] at he
      simp only [Option.map_some, Option.some.injEq] at he
      subst he
      have := hT a (hsub a ha).1 b (hsub b hb).1 i j sp c1 hl
      exact ⟨j, sp, hl, this ▸ c2, this ▸ c3, c4⟩
  have hlast : ∀ k ∈ marks, ∃ x, IsLast (covers T k) ((p.stretches head).filter fun x => Seen x.2) x ∧
      IsLast (covers T k) (joined ((p.stretches head).filter fun x => Seen x.2)) x := by
    intro k hk
    obtain ⟨x, a1, a2, a3⟩ := hc k hk
    obtain ⟨y, hy⟩ := isLast_exists (P := covers T k) (xs := (p.stretches head).filter fun x => Seen x.2)
      ⟨x, List.mem_filter.2 ⟨a1, a2⟩, a3⟩
    exact ⟨y, hy, isLast_joined (hcong k) hy⟩
  -- every diagram has a frame
  have hne : ∀ d ∈ out.steps, d.frames ≠ [] := by
    intro d hd hn
    obtain ⟨x, hx, hs⟩ := forall₂_right h3 hd
    have hlen := hs.2.1
    rw [hn] at hlen
    have hxne : ∀ x ∈ p.stretches head, x.2 ≠ [] := by
      have hv := program_viewed p hp
      have hsh : Shorter ((p.first.2, [(p.main, some (head p.main))]) :: Visits.looks head [] p.main p.body)
        (p.stretches head) := .keep (visits_shorter head [] p.main p.body)
      intro x hx
      have hmem : ∀ {xs ys : List (σ × CallStack)}, Shorter xs ys → ∀ y ∈ ys, y ∈ xs := by
        intro xs ys h
        induction h with
        | nil => simp
        | keep _ ih =>
          intro y hy
          rcases List.mem_cons.1 hy with rfl | hy
          · exact List.mem_cons_self ..
          · exact List.mem_cons_of_mem _ (ih y hy)
        | drop _ _ ih => intro y hy; exact List.mem_cons_of_mem _ (ih y hy)
      have hx' := hmem hsh x hx
      have : ∀ {ps xs}, Viewed m fns S ps xs → ∀ x ∈ xs, x.2 ≠ [] := by
        intro ps xs h
        induction h with
        | nil => simp
        | skip _ _ _ ih => exact ih
        | keep _ b _ ih =>
          intro y hy
          rcases List.mem_cons.1 hy with rfl | hy
          · exact b.1
          · exact ih y hy
      exact this hv x hx'
    exact hxne x (hsub x (joined_sub _ x hx)).1 (List.length_eq_zero_iff.1 hlen.symm)
  have hdoc : ∀ st ∈ out.steps.map page, InDoc doc st := by
    intro st hst
    obtain ⟨d, hd, rfl⟩ := List.mem_map.1 hst
    obtain ⟨x, -, hs⟩ := forall₂_right h3 hd
    exact (covers_page hpage hs (hne d hd) 0).2
  have hcov : ∀ k ∈ marks, ∃ st ∈ out.steps.map page, Covers doc k st := by
    intro k hk
    obtain ⟨x, -, pre, post, a1, a2, -⟩ := hlast k hk
    obtain ⟨d, hd, hs⟩ := forall₂_left h3 (x := x) (by rw [a1]; simp)
    exact ⟨page d, List.mem_map_of_mem hd, (covers_page hpage hs (hne d hd) k).1.2 a2⟩
  cases hrend : renderInterpreter doc (out.steps.map page) out.result.isSome marks with
  | error e =>
    exfalso
    have herr : ∃ e, Frontend.filterSteps doc (out.steps.map page) marks = .error e := by
      unfold renderInterpreter at hrend
      have hpos : marks.length > 0 := List.length_pos_iff.2 hm
      simp only [hpos, if_true] at hrend
      cases hf : Frontend.filterSteps doc (out.steps.map page) marks with
      | error e => exact ⟨e, rfl⟩
      | ok q => simp [hf] at hrend
    obtain ⟨k, hk, hno⟩ := (Frontend.C52_error hdoc marks).1.1 herr
    obtain ⟨st, hst, hcv⟩ := hcov k hk
    exact hno st hst hcv
  | ok q =>
    obtain ⟨mk, dg⟩ := q
    obtain ⟨l1, l2, l3, l4, -⟩ := Frontend.C52_labels hrend
    obtain ⟨f, f1, f2, -, -, f5, f6⟩ := Frontend.C52_pairs (l4 hm)
    refine ⟨fuel, out, mk, dg, h1, hrend, f2, l1.symm, ?_⟩
    intro i mark diagram hmk hdg
    refine ⟨(l2 i mark hmk).trans (l3 i diagram hdg).symm, ?_⟩
    have hmark : mark.at_ ∈ marks := f2.mem_iff.1 (List.mem_map_of_mem (List.mem_of_getElem? hmk))
    have hstep := f6 i mark.at_ (by rw [List.getElem?_map, hmk]; rfl)
    rw [List.getElem?_map, hdg, Option.map_some, List.getElem?_map] at hstep
    obtain ⟨x, d, a1, a2, a3⟩ := latest_isLast hpage h3 hne (f1 mark.at_ hmark)
    rw [a2, Option.map_some, Option.some.injEq] at hstep
    obtain ⟨y, b1, b2⟩ := hlast mark.at_ hmark
    have := isLast_unique a1 b2
    subst this
    exact ⟨x, d, b1, hstep, a3⟩

/-! ## In terms of the source -/

theorem stretches_flatMap (head : Nat → Span) (outer : CallStack) (inst : Nat) (v : Visits σ) :
    v.stretches head outer inst = (Visits.toList v).flatMap (fun q => q.2.stretches head outer inst q.1 none) := by
  match v with
  | .done => unfold Visits.stretches Visits.toList; rfl
  | .visit place parts rest =>
    rw [Visits.stretches, Visits.toList, List.flatMap_cons, stretches_flatMap head outer inst rest]

theorem finish_last (head : Nat → Span) (outer : CallStack) (inst : Nat) (place : Option Span) (last : Option σ)
    (p : Parts σ) (z : σ) (h : Parts.finish last p = some z) :
    ∃ xs, p.stretches head outer inst place last = xs ++ [(z, outer ++ [(inst, place)])] := by
  match p with
  | .done =>
    rw [Parts.finish] at h
    subst h
    exact ⟨[], by rw [Parts.stretches]; rfl⟩
  | .work s s' rest =>
    rw [Parts.finish] at h
    rw [Parts.stretches]
    exact finish_last head outer inst place (some s') rest z h
  | .call s s' callee body t t' rest =>
    rw [Parts.finish] at h
    obtain ⟨xs, hx⟩ := finish_last head outer inst place (some t') rest z h
    rw [Parts.stretches, hx]
    exact ⟨(last.toList.map fun s => (s, outer ++ [(inst, place)])) ++
      (s', outer ++ [(inst, place), (callee, some (head callee))]) ::
        (body.stretches head (outer ++ [(inst, place)]) callee ++ xs), by simp⟩
  | .ends s s' callee body => simp [Parts.finish] at h

mutual
theorem parts_inner (head : Nat → Span) (outer : CallStack) (inst : Nat) (place : Option Span) (last : Option σ)
    (p : Parts σ) : ∀ x ∈ p.stretches head outer inst place last,
      x.2 = outer ++ [(inst, place)] ∨ ∃ c ∈ Parts.calls p, ∃ q, x.2.getLast? = some (c, q) := by
  have hl : ∀ last : Option σ, ∀ x ∈ last.toList.map (fun s => (s, outer ++ [(inst, place)])),
      x.2 = outer ++ [(inst, place)] := by
    intro last x hx
    obtain ⟨y, -, rfl⟩ := List.mem_map.1 hx
    rfl
  intro x hx
  match p with
  | .done => rw [Parts.stretches] at hx; exact .inl (hl _ x hx)
  | .work s s' rest =>
    rw [Parts.stretches] at hx
    rw [Parts.calls]
    exact parts_inner head outer inst place (some s') rest x hx
  | .call s s' callee body t t' rest =>
    rw [Parts.stretches] at hx
    rw [Parts.calls]
    rcases List.mem_append.1 hx with hx | hx
    · exact .inl (hl _ x hx)
    · rcases List.mem_cons.1 hx with rfl | hx
      · exact .inr ⟨callee, List.mem_cons_self .., _, by rw [append_pair, List.getLast?_concat]⟩
      · rcases List.mem_append.1 hx with hx | hx
        · obtain ⟨c, hc, h⟩ := visits_inner head _ callee body x hx
          refine .inr ⟨c, ?_, h⟩
          rcases hc with rfl | hc
          · exact List.mem_cons_self ..
          · exact List.mem_cons_of_mem _ (List.mem_append_left _ hc)
        · rcases parts_inner head outer inst place (some t') rest x hx with h | ⟨c, hc, h⟩
          · exact .inl h
          · exact .inr ⟨c, List.mem_cons_of_mem _ (List.mem_append_right _ hc), h⟩
  | .ends s s' callee body =>
    rw [Parts.stretches] at hx
    rw [Parts.calls]
    rcases List.mem_append.1 hx with hx | hx
    · exact .inl (hl _ x hx)
    · rcases List.mem_cons.1 hx with rfl | hx
      · exact .inr ⟨callee, List.mem_cons_self .., _, by rw [append_pair, List.getLast?_concat]⟩
      · obtain ⟨c, hc, h⟩ := visits_inner head _ callee body x hx
        refine .inr ⟨c, ?_, h⟩
        rcases hc with rfl | hc
        · exact List.mem_cons_self ..
        · exact List.mem_cons_of_mem _ hc
theorem visits_inner (head : Nat → Span) (outer : CallStack) (inst : Nat) (v : Visits σ) :
    ∀ x ∈ v.stretches head outer inst, ∃ c, (c = inst ∨ c ∈ Visits.calls v) ∧ ∃ q, x.2.getLast? = some (c, q) := by
  intro x hx
  match v with
  | .done => rw [Visits.stretches] at hx; simp at hx
  | .visit place parts rest =>
    rw [Visits.stretches] at hx
    rw [Visits.calls]
    rcases List.mem_append.1 hx with hx | hx
    · rcases parts_inner head outer inst place none parts x hx with h | ⟨c, hc, h⟩
      · exact ⟨inst, .inl rfl, place, by rw [h, List.getLast?_concat]⟩
      · exact ⟨c, .inr (List.mem_append_left _ hc), h⟩
    · obtain ⟨c, hc, h⟩ := visits_inner head outer inst rest x hx
      exact ⟨c, hc.imp_right (List.mem_append_right _), h⟩
end

/-- A list without the states that are not seen. -/
theorem isLast_filter {P : σ × CallStack → Prop} (A : List (σ × CallStack)) (x : σ × CallStack)
    (B : List (σ × CallStack)) (hs : Seen x.2 = true) (hx : P x) (hB : ∀ y ∈ B, Seen y.2 = true → ¬ P y) :
    IsLast P ((A ++ x :: B).filter fun x => Seen x.2) x := by
  refine ⟨A.filter fun x => Seen x.2, B.filter fun x => Seen x.2, ?_, hx, ?_⟩
  · rw [List.filter_append, filter_pos hs]
  · intro y hy
    exact hB y (List.mem_filter.1 hy).1 (List.mem_filter.1 hy).2

/-- Nothing after the visits before the mark covers it: the later visits begin behind the mark, and what they call is
elsewhere. -/
theorem later_not_covers (T : Text) (k : Nat) (head : Nat → Span) (outer : CallStack) (g : Nat)
    (vs : List (Option Span × Parts σ))
    (hv : ∀ q ∈ vs, (∀ sp, q.1 = some sp → k ≤ T.start sp) ∧
      ∀ c ∈ Parts.calls q.2, ¬((T.body c).1 ≤ k ∧ k ≤ (T.body c).2)) :
    ∀ y ∈ vs.flatMap (fun q => q.2.stretches head outer g q.1 none), ¬ covers T k y := by
  rintro y hy ⟨i, sp, h1, h2, h3, h4⟩
  obtain ⟨q, hq, hy⟩ := List.mem_flatMap.1 hy
  obtain ⟨ha, hb⟩ := hv q hq
  rcases parts_inner head outer g q.1 none q.2 y hy with h | ⟨c, hc, r, h⟩
  · rw [h, List.getLast?_concat, Option.some.injEq, Prod.mk.injEq] at h1
    have := ha sp h1.2
    omega
  · rw [h, Option.some.injEq, Prod.mk.injEq] at h1
    obtain ⟨rfl, -⟩ := h1
    exact hb c hc ⟨h2, h3⟩

/-- **C127 (partial).** Let the last activation of a function that reaches the mark visit the statement `sp`, which begins
before the mark, and after it only statements that begin behind the mark; and let the mark be in no function called from
the statements behind it. Then the state of the mark is the one in which the visit of `sp` has ended. -/
theorem C127_statement_partial (T : Text) (k : Nat) (head : Nat → Span) (outer : CallStack) (g : Nat) (v : Visits σ)
    (xs A B : List (σ × CallStack)) (hxs : xs = A ++ v.stretches head outer g ++ B)
    (v₁ v₂ : List (Option Span × Parts σ)) (sp : Span) (parts : Parts σ)
    (hv : Visits.toList v = v₁ ++ (some sp, parts) :: v₂) (z : σ) (hz : Parts.finish none parts = some z)
    (hin : (T.body g).1 ≤ k ∧ k ≤ (T.body g).2) (hsp : T.start sp < k)
    (hv₂ : ∀ q ∈ v₂, (∀ sp, q.1 = some sp → k ≤ T.start sp) ∧
      ∀ c ∈ Parts.calls q.2, ¬((T.body c).1 ≤ k ∧ k ≤ (T.body c).2))
    (hB : ∀ y ∈ B, ¬ covers T k y) (ho : Seen outer = true) :
    IsLast (covers T k) (xs.filter fun x => Seen x.2) (z, outer ++ [(g, some sp)]) := by
  obtain ⟨ys, hys⟩ := finish_last head outer g (some sp) none parts z hz
  have : xs = (A ++ v₁.flatMap (fun q => q.2.stretches head outer g q.1 none) ++ ys) ++ (z, outer ++ [(g, some sp)]) ::
      (v₂.flatMap (fun q => q.2.stretches head outer g q.1 none) ++ B) := by
    rw [hxs, stretches_flatMap, hv, List.flatMap_append, List.flatMap_cons, hys]
    simp
  rw [this]
  apply isLast_filter
  · unfold Seen at ho ⊢
    rw [List.all_append, ho]
    rfl
  · exact ⟨g, sp, by simp, hin.1, hin.2, hsp⟩
  · intro y hy _
    rcases List.mem_append.1 hy with hy | hy
    · exact later_not_covers T k head outer g v₂ hv₂ y hy
    · exact hB y hy

/-- **C127 (partial).** If all statements that the last activation visits begin behind the mark, the state of the mark is
the one in which the function is entered. -/
theorem C127_entered_partial (T : Text) (k : Nat) (head : Nat → Span) (outer : CallStack) (g : Nat) (v : Visits σ)
    (s : σ) (xs A B : List (σ × CallStack))
    (hxs : xs = A ++ (s, outer ++ [(g, some (head g))]) :: v.stretches head outer g ++ B)
    (hin : (T.body g).1 ≤ k ∧ k ≤ (T.body g).2) (hsp : T.start (head g) < k)
    (hv : ∀ q ∈ Visits.toList v, (∀ sp, q.1 = some sp → k ≤ T.start sp) ∧
      ∀ c ∈ Parts.calls q.2, ¬((T.body c).1 ≤ k ∧ k ≤ (T.body c).2))
    (hB : ∀ y ∈ B, ¬ covers T k y) (ho : Seen outer = true) :
    IsLast (covers T k) (xs.filter fun x => Seen x.2) (s, outer ++ [(g, some (head g))]) := by
  have : xs = A ++ (s, outer ++ [(g, some (head g))]) :: (v.stretches head outer g ++ B) := by
    rw [hxs]; simp
  rw [this]
  apply isLast_filter
  · unfold Seen at ho ⊢
    rw [List.all_append, ho]
    rfl
  · exact ⟨g, head g, by simp, hin.1, hin.2, hsp⟩
  · intro y hy _
    rcases List.mem_append.1 hy with hy | hy
    · rw [stretches_flatMap] at hy
      exact later_not_covers T k head outer g _ hv y hy
    · exact hB y hy

/-- **C127 (partial).** A mark in `main`, behind the beginning of a statement and before the ones visited later, shows the
state in which `main` is done with this statement. -/
theorem C127_main_partial (T : Text) (k : Nat) (head : Nat → Span) (p : Program σ)
    (v₁ v₂ : List (Option Span × Parts σ)) (sp : Span) (parts : Parts σ)
    (hv : Visits.toList p.body = v₁ ++ (some sp, parts) :: v₂) (z : σ) (hz : Parts.finish none parts = some z)
    (hin : (T.body p.main).1 ≤ k ∧ k ≤ (T.body p.main).2) (hsp : T.start sp < k)
    (hv₂ : ∀ q ∈ v₂, (∀ sp, q.1 = some sp → k ≤ T.start sp) ∧
      ∀ c ∈ Parts.calls q.2, ¬((T.body c).1 ≤ k ∧ k ≤ (T.body c).2)) :
    IsLast (covers T k) ((p.stretches head).filter fun x => Seen x.2) (z, [(p.main, some sp)]) :=
  C127_statement_partial T k head [] p.main p.body (p.stretches head) [(p.first.2, [(p.main, some (head p.main))])] []
    (by simp [Program.stretches]) v₁ v₂ sp parts hv z hz hin hsp hv₂ (by simp) rfl

/-- **C127** (what a reader may not expect). All marks inside one statement of the outermost block, say in the body of a
loop or in both branches of a conditional, show the same state: the one in which the whole statement is done. -/
theorem C127_inside (T : Text) (k k' : Nat) (head : Nat → Span) (p : Program σ)
    (v₁ v₂ : List (Option Span × Parts σ)) (sp : Span) (parts : Parts σ)
    (hv : Visits.toList p.body = v₁ ++ (some sp, parts) :: v₂) (z : σ) (hz : Parts.finish none parts = some z)
    (hk : T.start sp < k) (hkk : k ≤ k') (hk' : k' ≤ (T.body p.main).2) (hb : (T.body p.main).1 ≤ T.start sp)
    (hv₂ : ∀ q ∈ v₂, (∀ sp, q.1 = some sp → k' ≤ T.start sp) ∧
      ∀ c ∈ Parts.calls q.2, k' < (T.body c).1 ∨ (T.body c).2 < k) (x x' : σ × CallStack)
    (hx : IsLast (covers T k) ((p.stretches head).filter fun x => Seen x.2) x)
    (hx' : IsLast (covers T k') ((p.stretches head).filter fun x => Seen x.2) x') :
    x = (z, [(p.main, some sp)]) ∧ x' = x := by
  have h := C127_main_partial T k head p v₁ v₂ sp parts hv z hz ⟨by omega, by omega⟩ hk (fun q hq =>
    ⟨fun s hs => Nat.le_trans hkk ((hv₂ q hq).1 s hs), fun c hc hin => by
      rcases (hv₂ q hq).2 c hc with h | h <;> omega⟩)
  have h' := C127_main_partial T k' head p v₁ v₂ sp parts hv z hz ⟨by omega, by omega⟩ (by omega) (fun q hq =>
    ⟨(hv₂ q hq).1, fun c hc hin => by
      rcases (hv₂ q hq).2 c hc with h | h <;> omega⟩)
  exact ⟨isLast_unique hx h, (isLast_unique hx' h').trans (isLast_unique hx h).symm⟩

theorem isLast_suffix {α : Type} {P : α → Prop} {A B : List α} {x : α} (h : IsLast P (A ++ B) x) (hB : ∃ y ∈ B, P y) :
    x ∈ B := by
  obtain ⟨y, hy⟩ := isLast_exists hB
  obtain ⟨pre, post, h1, h2, h3⟩ := hy
  have : IsLast P (A ++ B) y := ⟨A ++ pre, post, by rw [h1]; simp, h2, h3⟩
  rw [isLast_unique h this, h1]
  simp

theorem stretches_some (head : Nat → Span) (outer : CallStack) (inst : Nat) (place : Option Span) (t : σ)
    (p : Parts σ) : ∃ z, (z, outer ++ [(inst, place)]) ∈ p.stretches head outer inst place (some t) := by
  match p with
  | .done => exact ⟨t, by rw [Parts.stretches]; simp⟩
  | .work s s' rest =>
    obtain ⟨z, hz⟩ := stretches_some head outer inst place s' rest
    exact ⟨z, by rw [Parts.stretches]; exact hz⟩
  | .call .. => exact ⟨t, by rw [Parts.stretches]; simp⟩
  | .ends .. => exact ⟨t, by rw [Parts.stretches]; simp⟩

/-- **C127** (the code does otherwise). A mark inside a closure that is written in the statement that calls it, as in
`v.iter().map(|x| { let y = x + 1; `[]` y })`, never shows a state of the closure once it has returned: the function around
it is then at a place that begins before the mark, too. -/
theorem C127_closure (T : Text) (k : Nat) (head : Nat → Span) (outer : CallStack) (inst : Nat) (sp : Span)
    (t : σ) (rest : Parts σ) (A B : List (σ × CallStack))
    (hin : (T.body inst).1 ≤ k ∧ k ≤ (T.body inst).2) (hsp : T.start sp < k) (ho : Seen outer = true)
    (x : σ × CallStack)
    (hx : IsLast (covers T k)
      ((A ++ (rest.stretches head outer inst (some sp) (some t) ++ B)).filter fun x => Seen x.2) x) :
    x ∈ rest.stretches head outer inst (some sp) (some t) ++ B := by
  rw [List.filter_append] at hx
  refine (List.mem_filter.1 (isLast_suffix hx ?_)).1
  obtain ⟨z, hz⟩ := stretches_some head outer inst (some sp) t rest
  refine ⟨_, List.mem_filter.2 ⟨List.mem_append_left _ hz, ?_⟩, inst, sp, by simp, hin.1, hin.2, hsp⟩
  unfold Seen at ho ⊢
  rw [List.all_append, ho]
  rfl

/-! ## Concrete cases -/

/-- `main` is at 10 to 60 with statements at 20 and 40, function 2 at 70 to 90; a function begins with its header. -/
def demoText : Text where
  body i := if i = 0 then (10, 60) else (70, 90)
  start sp := sp.lo

def markStory : Program Nat where
  before := []
  first := (0, 1)
  main := 0
  body :=
    .visit (some ⟨20, 25⟩) (.work 1 2 (.call 2 3 2 (.visit (some ⟨80, 85⟩) (.work 3 4 .done) .done) 4 5 .done))
      (.visit (some ⟨40, 45⟩) (.work 5 6 .done) .done)
  after := []

/-- A mark behind the first statement shows the state after its call has returned. -/
example : IsLast (covers demoText 30) ((markStory.stretches demoHead).filter fun x => Seen x.2)
    (5, [(0, some ⟨20, 25⟩)]) :=
  C127_main_partial demoText 30 demoHead markStory [] [(some ⟨40, 45⟩, .work 5 6 .done)] ⟨20, 25⟩ _ rfl 5 rfl
    (by decide) (by decide) (by
      intro q hq
      rw [List.mem_singleton] at hq
      subst hq
      exact ⟨fun sp h => by cases h; decide, by simp [Parts.calls]⟩)

/-- Function 2 as a closure in the first statement, at 21 to 24 with a statement at 22: a mark at 23. -/
def closureText : Text where
  body i := if i = 0 then (10, 60) else (21, 24)
  start sp := sp.lo

example : covers closureText 23 (3, ([(0, some ⟨20, 25⟩), (2, some ⟨22, 23⟩)] : CallStack)) ∧
    covers closureText 23 (5, ([(0, some ⟨20, 25⟩)] : CallStack)) :=
  ⟨⟨2, ⟨22, 23⟩, rfl, by decide, by decide, by decide⟩, 0, ⟨20, 25⟩, rfl, by decide, by decide, by decide⟩

end Verif.Story
