import Verif.Mapper.Props
/-!
# C92: the trace that is shown
-/
namespace Verif.Mapper
open Verif.Cfg Verif.Group Verif.Group.Spec

variable {P H R : Type}

/-! ## Specification -/

/-- Where a machine location is shown: at the statement of the outermost block in which it lies, at the closing brace,
or at the span it carries; always the part of it that is written inside the function. -/
inductive ShownAt (fns : Nat → Fn) (S : Spans) : MirLoc → Span → Prop
  | stmt {i l s sp} : ¬AtBrace (fns i) l → InBody (fns i).body l → RealLoc (fns i).body l →
      TopLevel (fns i).value s → Below (fns i).hir s ((fns i).hirOf l) →
      S.asLocal (S.node s) (S.whole (fns i).owner) = some sp → ShownAt fns S (i, .inl l) sp
  | brace {i l sp} : AtBrace (fns i) l →
      S.asLocal ⟨(fns i).whole.hi - 1, (fns i).whole.hi⟩ (S.whole (fns i).owner) = some sp →
      ShownAt fns S (i, .inl l) sp
  | span {i s sp} : S.asLocal s (S.whole (fns i).owner) = some sp → ShownAt fns S (i, .inr s) sp

/-- The shown state is the raw state with every frame at the place where its location is shown. -/
def ShownAs (fns : Nat → Fn) (S : Spans) (raw : Step MirLoc P H) (shown : Step Span P H) : Prop :=
  List.Forall₂ (fun fr fr' => ShownAt fns S fr.location fr'.location ∧ fr.payload = fr'.payload)
    raw.frames shown.frames ∧ raw.heap = shown.heap

/-- Everything the theorems assume of the functions. -/
structure WellFormed (fns : Nat → Fn) (order : Nat → List Nat) : Prop where
  placed : ∀ i, Placed (fns i)
  lists : ∀ i, Lists (fns i) (order i)

/-- The first stage. -/
abbrev first (fns : Nat → Fn) (order : Nat → List Nat) (l : MirLoc) : Option HirLoc :=
  abstractLoc (fns l.1) (order l.1) l.2

/-! ## Both stages on a location -/

theorem shownAt_iff {fns : Nat → Fn} {order : Nat → List Nat} (hw : WellFormed fns order) (S : Spans) (l : MirLoc)
    (sp : Span) : (first fns order l).bind (toSpan S) = some sp ↔ ShownAt fns S l sp := by
  obtain ⟨i, l | s⟩ := l
  · constructor
    · intro h
      rw [Option.bind_eq_some_iff] at h
      obtain ⟨⟨o, s | b⟩, h1, h2⟩ := h
      · obtain ⟨rfl, a1, a2, a3, a4, a5⟩ := (C91_statement _ (hw.placed i) _ (hw.lists i) l o s).1 h1
        exact .stmt a1 a2 a3 a4 a5 h2
      · obtain ⟨rfl, a1, rfl⟩ := (C91_brace _ _ l o b).1 h1
        exact .brace a1 h2
    · intro h
      rw [Option.bind_eq_some_iff]
      cases h with
      | stmt a1 a2 a3 a4 a5 h2 =>
        exact ⟨_, (C91_statement _ (hw.placed i) _ (hw.lists i) l _ _).2 ⟨rfl, a1, a2, a3, a4, a5⟩, h2⟩
      | brace a1 h2 => exact ⟨_, (C91_brace _ (order i) l _ _).2 ⟨rfl, a1, rfl⟩, h2⟩
  · constructor
    · intro h; exact .span h
    · intro h; cases h with | span h => exact h

theorem mapsTo_comp {L₁ L₂ L₃ : Type} (f : L₁ → Option L₂) (g : L₂ → Option L₃) (s : Step L₁ P H) (s' : Step L₂ P H)
    (s'' : Step L₃ P H) (h1 : MapsTo f s s') (h2 : MapsTo g s' s'') : MapsTo (fun l => (f l).bind g) s s'' := by
  obtain ⟨a, b⟩ := h1
  obtain ⟨c, d⟩ := h2
  refine ⟨?_, b.trans d⟩
  clear b d
  revert a c
  generalize s.frames = x
  generalize s'.frames = y
  generalize s''.frames = z
  intro a c
  induction a generalizing z with
  | nil => cases c; exact .nil
  | cons ha _ ih =>
    cases c with
    | cons hc hcs => exact .cons ⟨by show (f _).bind g = _; rw [ha.1]; exact hc.1, ha.2.trans hc.2⟩ (ih _ hcs)

theorem mapsTo_split {L₁ L₂ L₃ : Type} (f : L₁ → Option L₂) (g : L₂ → Option L₃) (s : Step L₁ P H) (s'' : Step L₃ P H)
    (h : MapsTo (fun l => (f l).bind g) s s'') : ∃ s', MapsTo f s s' ∧ MapsTo g s' s'' := by
  obtain ⟨a, b⟩ := h
  have : ∃ fs, List.Forall₂ (fun (fr : Frame L₁ P) (fr' : Frame L₂ P) => f fr.location = some fr'.location ∧
      fr.payload = fr'.payload) s.frames fs ∧ List.Forall₂ (fun (fr : Frame L₂ P) (fr' : Frame L₃ P) =>
      g fr.location = some fr'.location ∧ fr.payload = fr'.payload) fs s''.frames := by
    clear b
    revert a
    generalize s.frames = x
    generalize s''.frames = z
    intro a
    induction a with
    | nil => exact ⟨[], .nil, .nil⟩
    | @cons x z _ _ ha _ ih =>
      obtain ⟨fs, h1, h2⟩ := ih
      obtain ⟨m, hm, hg⟩ := Option.bind_eq_some_iff.1 ha.1
      exact ⟨⟨m, x.payload⟩ :: fs, .cons ⟨hm, rfl⟩ h1, .cons ⟨hg, ha.2⟩ h2⟩
  obtain ⟨fs, h1, h2⟩ := this
  exact ⟨⟨fs, s.heap⟩, ⟨h1, rfl⟩, ⟨h2, b⟩⟩

theorem forall₂_imp {α β : Type} {r r' : α → β → Prop} (h : ∀ a b, r a b → r' a b) {xs : List α} {ys : List β}
    (hf : List.Forall₂ r xs ys) : List.Forall₂ r' xs ys := by
  induction hf with
  | nil => exact .nil
  | cons a _ ih => exact .cons (h _ _ a) ih

theorem shownAs_iff {fns : Nat → Fn} {order : Nat → List Nat} (hw : WellFormed fns order) (S : Spans)
    (raw : Step MirLoc P H) (shown : Step Span P H) :
    MapsTo (fun l => (first fns order l).bind (toSpan S)) raw shown ↔ ShownAs fns S raw shown := by
  unfold MapsTo ShownAs
  constructor
  · rintro ⟨a, b⟩
    exact ⟨forall₂_imp (fun _ _ h => ⟨(shownAt_iff hw S _ _).1 h.1, h.2⟩) a, b⟩
  · rintro ⟨a, b⟩
    exact ⟨forall₂_imp (fun _ _ h => ⟨(shownAt_iff hw S _ _).2 h.1, h.2⟩) a, b⟩

/-! ## Sublists -/

theorem lastOfRuns_sublist {α K : Type} [DecidableEq K] (key : α → K) (xs : List α) :
    (lastOfRuns key xs).Sublist xs := by
  induction xs with
  | nil => exact .slnil
  | cons x xs ih =>
    cases xs with
    | nil => exact List.Sublist.refl _
    | cons y ys =>
      simp only [lastOfRuns]
      split
      · exact ih.cons _
      · exact ih.cons_cons _

/-- A sublist of a mapped list comes from a sublist of the list. -/
theorem sublist_filterMap {α β : Type} (f : α → Option β) (xs : List α) (ys : List β) (h : ys.Sublist (xs.filterMap f)) :
    ∃ ks, ks.Sublist xs ∧ List.Forall₂ (fun x y => f x = some y) ks ys := by
  induction xs generalizing ys with
  | nil => cases h; exact ⟨[], .slnil, .nil⟩
  | cons x xs ih =>
    cases hf : f x with
    | none =>
      rw [List.filterMap_cons_none hf] at h
      obtain ⟨ks, h1, h2⟩ := ih ys h
      exact ⟨ks, h1.cons _, h2⟩
    | some y =>
      rw [List.filterMap_cons_some hf] at h
      cases h with
      | cons _ h =>
        obtain ⟨ks, h1, h2⟩ := ih ys h
        exact ⟨ks, h1.cons _, h2⟩
      | cons_cons _ h =>
        obtain ⟨ks, h1, h2⟩ := ih _ h
        exact ⟨x :: ks, h1.cons_cons _, .cons hf h2⟩

theorem grouped_sublist {L₁ L₂ : Type} [DecidableEq L₂] (t : Trace L₁ P H R) (f : L₁ → Option L₂) (out : Trace L₂ P H R)
    (h : groupSteps t f = some out) :
    ∃ ks, ks.Sublist t.steps ∧ List.Forall₂ (MapsTo f) ks out.steps := by
  obtain ⟨h1, -, -⟩ := groupSteps_eq t f out h
  obtain ⟨ks, h2, h3⟩ := sublist_filterMap (mapStep f) t.steps out.steps (h1 ▸ lastOfRuns_sublist _ _)
  exact ⟨ks, h2, forall₂_imp (fun _ _ h => (mapStep_some f _ _).1 h) h3⟩

theorem forall₂_sublist {α β : Type} {r : α → β → Prop} {xs : List α} {ys ys' : List β} (h : List.Forall₂ r xs ys)
    (hs : ys'.Sublist ys) : ∃ xs', xs'.Sublist xs ∧ List.Forall₂ r xs' ys' := by
  induction h generalizing ys' with
  | nil => cases hs; exact ⟨[], .slnil, .nil⟩
  | cons a _ ih =>
    cases hs with
    | cons _ hs =>
      obtain ⟨ks, h1, h2⟩ := ih hs
      exact ⟨ks, h1.cons _, h2⟩
    | cons_cons _ hs =>
      obtain ⟨ks, h1, h2⟩ := ih hs
      exact ⟨_ :: ks, h1.cons_cons _, .cons a h2⟩

theorem forall₂_comp {α β γ : Type} {r : α → β → Prop} {q : β → γ → Prop} {xs : List α} {ys : List β} {zs : List γ}
    (h : List.Forall₂ r xs ys) (h' : List.Forall₂ q ys zs) : List.Forall₂ (fun a c => ∃ b, r a b ∧ q b c) xs zs := by
  induction h generalizing zs with
  | nil => cases h'; exact .nil
  | cons a _ ih => cases h' with | cons b hb => exact .cons ⟨_, a, b⟩ (ih hb)

/-! ## C92 -/

theorem interpretTrace_some {fns : Nat → Fn} {order : Nat → List Nat} {S : Spans} {t : Trace MirLoc P H R}
    {out : Trace Span P H R} (h : interpretTrace fns order S t = some out) :
    ∃ mid, groupSteps t (first fns order) = some mid ∧ groupSteps mid (toSpan S) = some out := by
  unfold interpretTrace at h
  split at h
  · simp at h
  · rename_i mid hm; exact ⟨mid, hm, h⟩

/-- **C92.** The states shown are states of the execution, in the order in which they occurred; each keeps its heap and
its frames, and every frame is shown at the statement of its function that was running. -/
theorem C92_sound (fns : Nat → Fn) (order : Nat → List Nat) (hw : WellFormed fns order) (S : Spans)
    (t : Trace MirLoc P H R) (out : Trace Span P H R) (h : interpretTrace fns order S t = some out) :
    ∃ kept, kept.Sublist t.steps ∧ List.Forall₂ (ShownAs fns S) kept out.steps := by
  obtain ⟨mid, h1, h2⟩ := interpretTrace_some h
  obtain ⟨k1, a1, b1⟩ := grouped_sublist _ _ _ h1
  obtain ⟨k2, a2, b2⟩ := grouped_sublist _ _ _ h2
  obtain ⟨k3, a3, b3⟩ := forall₂_sublist b1 a2
  refine ⟨k3, a3.trans a1, forall₂_imp ?_ (forall₂_comp b3 b2)⟩
  rintro a c ⟨b, hab, hbc⟩
  exact (shownAs_iff hw S a c).1 (mapsTo_comp _ _ a b c hab hbc)

/-- **C92.** If the last state of the execution can be shown, it is the last state shown. -/
theorem C92_last (fns : Nat → Fn) (order : Nat → List Nat) (hw : WellFormed fns order) (S : Spans)
    (t : Trace MirLoc P H R) (out : Trace Span P H R) (h : interpretTrace fns order S t = some out)
    (pre : List (Step MirLoc P H)) (raw : Step MirLoc P H) (shown : Step Span P H) (ht : t.steps = pre ++ [raw])
    (hs : ShownAs fns S raw shown) : ∃ pre', out.steps = pre' ++ [shown] := by
  obtain ⟨mid, h1, h2⟩ := interpretTrace_some h
  obtain ⟨m, hm1, hm2⟩ := mapsTo_split _ _ _ _ ((shownAs_iff hw S raw shown).2 hs)
  obtain ⟨pre', hp⟩ := C14_last t _ mid h1 pre raw m ht hm1
  exact C14_last mid _ out h2 pre' m shown hp hm2

/-- **C92.** Two consecutive states are never shown at the same place of the innermost function. -/
theorem C92_moves (fns : Nat → Fn) (order : Nat → List Nat) (S : Spans) (t : Trace MirLoc P H R)
    (out : Trace Span P H R) (h : interpretTrace fns order S t = some out) (i : Nat) (s s' : Step Span P H)
    (hi : out.steps[i]? = some s) (hi' : out.steps[i + 1]? = some s') (sp : Span) : ¬(Top s sp ∧ Top s' sp) := by
  obtain ⟨mid, -, h2⟩ := interpretTrace_some h
  exact C13_consecutive_differ mid _ out h2 i s s' hi hi' sp

/-- **C92.** The result of the execution is unchanged. -/
theorem C92_result (fns : Nat → Fn) (order : Nat → List Nat) (S : Spans) (t : Trace MirLoc P H R)
    (out : Trace Span P H R) (h : interpretTrace fns order S t = some out) : out.result = t.result := by
  obtain ⟨mid, h1, h2⟩ := interpretTrace_some h
  rw [C14_result _ _ _ h2, C14_result _ _ _ h1]

theorem forall₂_right {α β : Type} {r : α → β → Prop} {xs : List α} {ys : List β} (h : List.Forall₂ r xs ys) {y : β}
    (hy : y ∈ ys) : ∃ x ∈ xs, r x y := by
  induction h with
  | nil => simp at hy
  | cons a _ ih =>
    rcases List.mem_cons.1 hy with rfl | hy
    · exact ⟨_, List.mem_cons_self .., a⟩
    · obtain ⟨x, hx, hr⟩ := ih hy
      exact ⟨x, List.mem_cons_of_mem _ hx, hr⟩

theorem forall₂_left {α β : Type} {r : α → β → Prop} {xs : List α} {ys : List β} (h : List.Forall₂ r xs ys) {x : α}
    (hx : x ∈ xs) : ∃ y ∈ ys, r x y := by
  induction h with
  | nil => simp at hx
  | cons a _ ih =>
    rcases List.mem_cons.1 hx with rfl | hx
    · exact ⟨_, List.mem_cons_self .., a⟩
    · obtain ⟨y, hy, hr⟩ := ih hx
      exact ⟨y, List.mem_cons_of_mem _ hy, hr⟩

theorem mapsTo_nonempty {L₁ L₂ : Type} {f : L₁ → Option L₂} {s : Step L₁ P H} {s' : Step L₂ P H} (h : MapsTo f s s')
    (hn : s'.frames = []) : s.frames = [] := by
  have := h.1
  rw [hn] at this
  cases hs : s.frames with
  | nil => rfl
  | cons a b => rw [hs] at this; cases this

/-- **C92.** The mapping fails only on a state without frames. -/
theorem C92_total (fns : Nat → Fn) (order : Nat → List Nat) (S : Spans) (t : Trace MirLoc P H R) :
    interpretTrace fns order S t = none ↔ ∃ s ∈ t.steps, s.frames = [] := by
  rw [← C13_total t (first fns order)]
  unfold interpretTrace
  cases h : groupSteps t (first fns order) with
  | none => simp
  | some mid =>
    simp only [reduceCtorEq, iff_false]
    intro hn
    obtain ⟨s, hs, he⟩ := (C13_total mid (toSpan S)).1 hn
    obtain ⟨ks, hk, hf⟩ := grouped_sublist _ _ _ h
    obtain ⟨k, hk', hm⟩ := forall₂_right hf hs
    have := (C13_total t (first fns order)).2 ⟨k, hk.mem hk', mapsTo_nonempty hm he⟩
    rw [h] at this
    simp at this

theorem mapFrames_congr {L₁ L₂ : Type} (f g : L₁ → Option L₂) (frs : List (Frame L₁ P))
    (h : ∀ fr ∈ frs, f fr.location = g fr.location) : mapFrames f frs = mapFrames g frs := by
  induction frs with
  | nil => rfl
  | cons fr frs ih =>
    unfold mapFrames
    rw [h fr (List.mem_cons_self ..), ih (fun x hx => h x (List.mem_cons_of_mem _ hx))]

theorem groupSteps_congr {L₁ L₂ : Type} [DecidableEq L₂] (t : Trace L₁ P H R) (f g : L₁ → Option L₂)
    (h : ∀ s ∈ t.steps, ∀ fr ∈ s.frames, f fr.location = g fr.location) : groupSteps t f = groupSteps t g := by
  have : t.steps.filterMap (mapStep f) = t.steps.filterMap (mapStep g) := by
    revert h
    generalize t.steps = ss
    intro h
    induction ss with
    | nil => rfl
    | cons s ss ih =>
      have : mapStep f s = mapStep g s := by
        unfold mapStep
        rw [mapFrames_congr f g s.frames (h s (List.mem_cons_self ..))]
      rw [List.filterMap_cons, List.filterMap_cons, this, ih (fun x hx => h x (List.mem_cons_of_mem _ hx))]
  simp only [groupSteps, this]

/-- The places of the execution that are attributed to something can all be shown. -/
def Showable (fns : Nat → Fn) (order : Nat → List Nat) (S : Spans) (t : Trace MirLoc P H R) : Prop :=
  ∀ s ∈ t.steps, ∀ fr ∈ s.frames, ∀ x, first fns order fr.location = some x → ∃ sp, toSpan S x = some sp

/-- `mapped` are the states that can be shown, in order, each as it is shown. -/
inductive Showing (fns : Nat → Fn) (S : Spans) : List (Step MirLoc P H) → List (Step Span P H) → Prop
  | nil : Showing fns S [] []
  | keep {s s' ss out} : ShownAs fns S s s' → Showing fns S ss out → Showing fns S (s :: ss) (s' :: out)
  | drop {s ss out} : (∃ fr ∈ s.frames, ∀ sp, ¬ShownAt fns S fr.location sp) → Showing fns S ss out →
      Showing fns S (s :: ss) out

theorem showing_of_mapped {fns : Nat → Fn} {order : Nat → List Nat} (hw : WellFormed fns order) (S : Spans)
    {ss : List (Step MirLoc P H)} {out : List (Step Span P H)}
    (h : Mapped (fun l => (first fns order l).bind (toSpan S)) ss out) : Showing fns S ss out := by
  induction h with
  | nil => exact .nil
  | keep a _ ih => exact .keep ((shownAs_iff hw S _ _).1 a) ih
  | drop a _ ih =>
    obtain ⟨fr, hm, hn⟩ := a
    refine .drop ⟨fr, hm, fun sp hsp => ?_⟩ ih
    rw [(shownAt_iff hw S _ _).2 hsp] at hn
    simp at hn

/-- **C92 (partial).** If everything attributed to a statement can be shown, the states shown are exactly the last
states of the maximal runs of states at one place, among those that can be shown. Without the hypothesis states can be
lost: `C14_two_stage_limit`. -/
theorem C92_runs_partial (fns : Nat → Fn) (order : Nat → List Nat) (hw : WellFormed fns order) (S : Spans)
    (t : Trace MirLoc P H R) (out : Trace Span P H R) (h : interpretTrace fns order S t = some out)
    (hs : Showable fns order S t) :
    ∃ mapped runs, Showing fns S t.steps mapped ∧ MaximalRuns mapped runs ∧
      List.Forall₂ (fun p s => ∃ pre, p.2 = pre ++ [s]) runs out.steps := by
  obtain ⟨mid, h1, h2⟩ := interpretTrace_some h
  have hne : ∀ s ∈ t.steps, s.frames ≠ [] := by
    intro s hs he
    rw [(C92_total fns order S t).2 ⟨s, hs, he⟩] at h
    simp at h
  obtain ⟨mapped, runs, out1, c1, c2, -, c3, c4⟩ :=
    C13_runs t (fun l => (first fns order l).bind (toSpan S)) hne
  refine ⟨mapped, runs, showing_of_mapped hw S c1, c2, ?_⟩
  have heq : out = out1 := by
    let g : HirLoc → Span := fun x => (toSpan S x).getD ⟨0, 0⟩
    have hmid : groupSteps mid (toSpan S) = groupSteps mid (fun x => some (g x)) := by
      apply groupSteps_congr
      intro s hsm fr hfr
      obtain ⟨ks, hk, hf⟩ := grouped_sublist _ _ _ h1
      obtain ⟨k, hkm, hm⟩ := forall₂_right hf hsm
      obtain ⟨fr0, hfr0, he⟩ := forall₂_right hm.1 hfr
      obtain ⟨sp, hsp⟩ := hs k (hk.mem hkm) fr0 hfr0 _ he.1
      simp only [g, hsp, Option.getD_some]
    have hone : groupSteps t (fun l => (first fns order l).bind (toSpan S)) =
        groupSteps t (fun l => (first fns order l).map g) := by
      apply groupSteps_congr
      intro s hst fr hfr
      cases hx : first fns order fr.location with
      | none => rfl
      | some x =>
        obtain ⟨sp, hsp⟩ := hs s hst fr hfr x hx
        simp only [Option.bind_some, Option.map_some, g, hsp, Option.getD_some]
    exact C14_two_stage t (first fns order) g mid out out1 h1 (hmid ▸ h2) (hone ▸ c3)
  rw [heq]
  exact c4

/-- **C92.** A state with a frame that cannot be shown is not shown, however deep this frame is: if every state of the
execution has one, nothing is shown. -/
theorem C92_nothing (fns : Nat → Fn) (order : Nat → List Nat) (hw : WellFormed fns order) (S : Spans)
    (t : Trace MirLoc P H R) (out : Trace Span P H R) (h : interpretTrace fns order S t = some out)
    (hn : ∀ s ∈ t.steps, ∃ fr ∈ s.frames, ∀ sp, ¬ShownAt fns S fr.location sp) : out.steps = [] := by
  obtain ⟨ks, hk, hf⟩ := C92_sound fns order hw S t out h
  cases ho : out.steps with
  | nil => rfl
  | cons s' ss =>
    exfalso
    obtain ⟨s, hs, hsh⟩ := forall₂_right hf (ho ▸ List.mem_cons_self .. : s' ∈ out.steps)
    obtain ⟨fr, hfr, hsp⟩ := hn s (hk.mem hs)
    obtain ⟨fr', -, h'⟩ := forall₂_left hsh.1 hfr
    exact hsp _ h'.1

/-! ## A concrete execution -/

/-- Nodes are shown at ten times their number; everything is inside its function. -/
def demoSpans : Spans where
  node n := ⟨10 * n, 10 * n + 5⟩
  whole _ := ⟨0, 1000⟩
  asLocal s _ := some s

/-- Instance 1 is a closure without a block with the same code as the function. -/
def demoFns (i : Nat) : Fn := if i = 1 then { demoFn with value := .other 1 } else demoFn

def demoOrder (i : Nat) : List Nat := steppable (demoFns i).value

theorem demo_wellFormed : WellFormed demoFns demoOrder where
  placed i := by
    unfold demoFns
    split
    · intro id stmts tail h; simp at h
    · exact demo_placed
  lists _ := fun _ => Iff.rfl

/-- Two states in the `let`, two in the final expression (in the second the closure has been entered), and the end. -/
def demoTrace : Trace MirLoc Nat Nat Unit where
  steps := [⟨[⟨(0, .inl ⟨0, 0⟩), 0⟩], 0⟩, ⟨[⟨(0, .inl ⟨0, 1⟩), 1⟩], 1⟩, ⟨[⟨(0, .inl ⟨1, 0⟩), 2⟩], 2⟩,
    ⟨[⟨(0, .inl ⟨1, 1⟩), 3⟩, ⟨(1, .inl ⟨0, 0⟩), 0⟩], 3⟩, ⟨[⟨(0, .inl ⟨2, 0⟩), 4⟩], 4⟩]
  result := ()

example : interpretTrace demoFns demoOrder demoSpans demoTrace =
    some ⟨[⟨[⟨⟨20, 25⟩, 1⟩], 1⟩, ⟨[⟨⟨40, 45⟩, 2⟩], 2⟩, ⟨[⟨⟨29, 30⟩, 4⟩], 4⟩], ()⟩ := by decide +kernel

end Verif.Mapper
