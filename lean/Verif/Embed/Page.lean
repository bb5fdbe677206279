import Verif.Embed.Props
import Batteries.Data.List.Basic
/-!
# C90: every block of a page is shown, with the answers for its own operations
-/
namespace Verif.Embed
open Verif.Block Verif.Preproc

/-- **C90.** If every block has a program, every block of the page is opened, and each exactly as if it were alone on
the page. -/
theorem C90_all_partial (D : Draws) (hs : List Html) (hc : ∀ h ∈ hs, h.code ≠ []) :
    (openPage D hs).2 = true ∧ (openPage D hs).1.length = hs.length ∧
    ∀ (i : Nat) (h : Html), hs[i]? = some h → (openPage D hs).1[i]? = openBlock D h := by
  induction hs with
  | nil => simp [openPage]
  | cons h hs ih =>
    obtain ⟨i1, i2, i3⟩ := ih (fun x hx => hc x (List.mem_cons_of_mem _ hx))
    have hne : h.code.isEmpty = false := by
      have := hc h (by simp)
      cases hh : h.code with
      | nil => exact absurd hh this
      | cons => rfl
    have ho : openBlock D h = some (h.operations.foldl (Ed.renderOperation D h) { code := h.code }) := by
      simp [openBlock, hne]
    refine ⟨?_, ?_, ?_⟩
    · simp only [openPage, ho]; exact i1
    · simp only [openPage, ho, List.length_cons, i2]
    · intro i x hx
      cases i with
      | zero =>
        simp only [List.getElem?_cons_zero, Option.some.injEq] at hx
        subst hx
        simp only [openPage, ho, List.getElem?_cons_zero]
      | succ i =>
        simp only [List.getElem?_cons_succ] at hx
        simp only [openPage, ho, List.getElem?_cons_succ]
        exact i3 i x hx

/-- **C90** (the code does otherwise): a block without a program stops the page, no block after it is opened. -/
theorem C90_stops (D : Draws) (hs hs' : List Html) (h : Html) (he : h.code = []) (hc : ∀ x ∈ hs, x.code ≠ []) :
    openPage D (hs ++ h :: hs') = ((openPage D hs).1, false) := by
  induction hs with
  | nil => simp [openPage, openBlock, he]
  | cons x hs ih =>
    have hne : x.code.isEmpty = false := by
      have := hc x (by simp)
      cases hh : x.code with
      | nil => exact absurd hh this
      | cons => rfl
    have ho : openBlock D x = some (x.operations.foldl (Ed.renderOperation D x) { code := x.code }) := by
      simp [openBlock, hne]
    have := ih (fun y hy => hc y (List.mem_cons_of_mem _ hy))
    simp only [List.cons_append, openPage, ho, this]

/-- `d` is what the operation `op` of the element shows: the trace, or the results of all bodies, in the answer to this
operation. -/
inductive Shows (D : Draws) (h : Html) : List Char → Drawing → Prop
  | interpreter (fs : List (List Char × Json)) (t : Json) (hr : h.responses opInterpreter = some (.obj fs))
      (hk : fs.lookup kOk = some t) (hd : D.trace h.code t h.annotations.stateLocations = true) :
      Shows D h opInterpreter (.diagram t h.annotations.stateLocations (truthy (h.config kHorizontal))
        (truthy (h.config kConcreteTypes)))
  | permissions (results : List Json) (js : List Json) (hr : h.responses opPermissions = some (.arr js))
      (hk : List.Forall₂ (fun j x => ∃ fs, j = Json.obj fs ∧ fs.lookup kOk = some x) js results)
      (hd : D.perms h.code results h.annotations = true) :
      Shows D h opPermissions (.perms results (isTrue (h.config kStepper)) (isTrue (h.config kBoundaries)))

theorem splitResults_ok {js rs : List Json}
    (h : List.Forall₂ (fun j x => ∃ fs, j = Json.obj fs ∧ fs.lookup kOk = some x) js rs) :
    splitResults js = some (rs, []) := by
  induction h with
  | nil => rfl
  | cons hj _ ih =>
    obtain ⟨fs, rfl, hk⟩ := hj
    simp [splitResults, okIn, hk, ih]

/-- The effect of an operation that can be shown, while the code is there. -/
theorem op_shows {D : Draws} {h : Html} {e : Ed} {op : List Char} {d : Drawing} (hs : Shows D h op d)
    (hu : e.unmounted = false) :
    (e.renderOperation D h op).drawn = e.drawn ++ [d] ∧ (e.renderOperation D h op).rejected = e.rejected ∧
    (e.renderOperation D h op).asked = e.asked ∧ (e.renderOperation D h op).reports = e.reports ∧
    (e.renderOperation D h op).unmounted = (d.isDiagram && truthy (h.config kHideCode)) := by
  obtain ⟨c1, c2, c3, c4, c5⟩ := common_drawn e h
  cases hs with
  | interpreter fs t hr hk hd =>
    have hf : falsy (some (.obj fs)) = false := rfl
    simp only [Ed.renderOperation, hr, hf, Bool.false_eq_true, if_false, c2, hu, if_true, okIn, hk,
      Ed.renderInterpreter, hd, Drawing.isDiagram, Bool.true_and]
    by_cases hh : truthy (h.config kHideCode) = true
    · simp [hh, c1, c3, c4, c5]
    · simp [Bool.eq_false_iff.2 hh, c1, c2, c3, c4, c5, hu]
  | permissions rs js hr hk hd =>
    have hf : falsy (some (.arr js)) = false := rfl
    have hne : opPermissions ≠ opInterpreter := by decide
    simp only [Ed.renderOperation, hr, hf, Bool.false_eq_true, if_false, c2, hu, hne, if_true, splitResults_ok hk,
      hd, Drawing.isDiagram, Bool.false_and, c1, c3, c4, c5, List.append_nil, and_self]

theorem ops_show {D : Draws} {h : Html} {ops : List (List Char)} {ds : List Drawing}
    (hs : List.Forall₂ (Shows D h) ops ds) (hh : truthy (h.config kHideCode) = false ∨ ∀ d ∈ ds, d.isDiagram = false)
    (e : Ed) (hu : e.unmounted = false) :
    (ops.foldl (Ed.renderOperation D h) e).drawn = e.drawn ++ ds ∧
    (ops.foldl (Ed.renderOperation D h) e).rejected = e.rejected ∧
    (ops.foldl (Ed.renderOperation D h) e).asked = e.asked ∧
    (ops.foldl (Ed.renderOperation D h) e).reports = e.reports ∧
    (ops.foldl (Ed.renderOperation D h) e).unmounted = false := by
  induction hs generalizing e with
  | nil => simp [hu]
  | @cons op d ops ds h1 _ ih =>
    obtain ⟨a1, a2, a3, a4, a5⟩ := op_shows h1 hu
    have hu' : (e.renderOperation D h op).unmounted = false := by
      rw [a5]
      rcases hh with hh | hh
      · simp [hh]
      · simp [hh d (by simp)]
    obtain ⟨b1, b2, b3, b4, b5⟩ := ih (hh.imp id (fun hx x hm => hx x (List.mem_cons_of_mem _ hm))) _ hu'
    simp only [List.foldl_cons, b1, b2, b3, b4, b5, a1, a2, a3, a4, List.append_assoc, List.singleton_append, and_self]

theorem op_code (D : Draws) (h : Html) (e : Ed) (op : List Char) : (e.renderOperation D h op).code = e.code := by
  have hc : (e.common h).code = e.code := by
    unfold Ed.common
    dsimp only
    split <;> split <;> rfl
  unfold Ed.renderOperation Ed.renderInterpreter
  dsimp only
  repeat' split
  all_goals first | rfl | exact hc

theorem ops_code (D : Draws) (h : Html) (ops : List (List Char)) (e : Ed) :
    (ops.foldl (Ed.renderOperation D h) e).code = e.code := by
  induction ops generalizing e with
  | nil => rfl
  | cons op ops ih => rw [List.foldl_cons, ih, op_code]

theorem op_asked (D : Draws) (h : Html) (e : Ed) (op : List Char) :
    (e.renderOperation D h op).asked = e.asked ++ (if falsy (h.responses op) then [op] else []) := by
  have hc := (common_drawn e h).2.2.2.1
  cases hr : h.responses op with
  | none => simp [Ed.renderOperation, hr, falsy]
  | some j =>
    cases hf : falsy (some j) with
    | true => simp [Ed.renderOperation, hr, hf]
    | false =>
      simp only [Ed.renderOperation, hr, hf, Bool.false_eq_true, if_false, List.append_nil, Ed.renderInterpreter]
      repeat' split
      all_goals exact hc

theorem ops_asked (D : Draws) (h : Html) (ops : List (List Char)) (e : Ed) :
    (ops.foldl (Ed.renderOperation D h) e).asked = e.asked ++ ops.filter (fun op => falsy (h.responses op)) := by
  induction ops generalizing e with
  | nil => simp
  | cons op ops ih =>
    rw [List.foldl_cons, ih, op_asked, List.filter_cons]
    split <;> simp

/-- **C90.** A block that does not hide its code shows its operations in the order in which they are written, each with
the answer to this operation; nothing is rejected or reported, and the server is not asked. -/
theorem C90_operations_partial (D : Draws) (h : Html) (ds : List Drawing) (hc : h.code ≠ [])
    (hs : List.Forall₂ (Shows D h) h.operations ds) (hh : truthy (h.config kHideCode) = false) :
    ∃ e, openBlock D h = some e ∧ e.code = h.code ∧ e.drawn = ds ∧ e.rejected = [] ∧ e.asked = [] ∧ e.reports = [] := by
  have hne : h.code.isEmpty = false := by
    cases hh : h.code with
    | nil => exact absurd hh hc
    | cons => rfl
  obtain ⟨a1, a2, a3, a4, -⟩ := ops_show hs (.inl hh) { code := h.code } rfl
  refine ⟨_, by simp only [openBlock, hne]; rfl, ?_, ?_, a2, a3, a4⟩
  · exact ops_code D h h.operations _
  · rw [a1]; rfl

/-- Once the code is gone, every later operation with an answer is rejected. -/
theorem ops_gone {D : Draws} {h : Html} (ops : List (List Char)) (e : Ed) (hu : e.unmounted = true)
    (ha : ∀ op ∈ ops, falsy (h.responses op) = false) :
    (ops.foldl (Ed.renderOperation D h) e).drawn = e.drawn ∧
    (ops.foldl (Ed.renderOperation D h) e).rejected = e.rejected ++ ops := by
  induction ops generalizing e with
  | nil => simp
  | cons op ops ih =>
    obtain ⟨c1, c2, c3, -⟩ := common_drawn e h
    have hf := ha op (by simp)
    cases hr : h.responses op with
    | none => rw [hr] at hf; simp [falsy] at hf
    | some j =>
      rw [hr] at hf
      have hstep : e.renderOperation D h op = { e.common h with rejected := (e.common h).rejected ++ [op] } := by
        simp only [Ed.renderOperation, hr, hf, Bool.false_eq_true, if_false, c2, hu, if_true]
      have := ih (e.renderOperation D h op) (by rw [hstep]; exact c2.trans hu)
        (fun o ho => ha o (List.mem_cons_of_mem _ ho))
      rw [List.foldl_cons, this.1, this.2, hstep]
      refine ⟨c1, ?_⟩
      show (e.common h).rejected ++ [op] ++ ops = _
      rw [c3, List.append_assoc]
      rfl

/-- **C90** (the code does otherwise): a block that hides its code shows nothing after its first diagram; every later
operation ends with an exception. -/
theorem C90_hidden (D : Draws) (h : Html) (pre post : List (List Char)) (ds : List Drawing) (d : Drawing)
    (hc : h.code ≠ []) (hops : h.operations = pre ++ opInterpreter :: post)
    (hs : List.Forall₂ (Shows D h) pre ds) (hp : ∀ x ∈ ds, x.isDiagram = false) (hd : Shows D h opInterpreter d)
    (ha : ∀ op ∈ post, falsy (h.responses op) = false) (hh : truthy (h.config kHideCode) = true) :
    ∃ e, openBlock D h = some e ∧ e.drawn = ds ++ [d] ∧ e.rejected = post := by
  have hne : h.code.isEmpty = false := by
    cases hh : h.code with
    | nil => exact absurd hh hc
    | cons => rfl
  obtain ⟨a1, a2, a3, a4, a5⟩ := ops_show hs (.inr hp) { code := h.code } rfl
  obtain ⟨b1, b2, b3, b4, b5⟩ := op_shows hd a5
  have hdd : d.isDiagram = true := by
    cases hd with
    | interpreter => rfl
  obtain ⟨g1, g2⟩ := ops_gone (D := D) post _ (b5.trans (by rw [hdd, hh]; rfl)) ha
  refine ⟨_, by simp only [openBlock, hne]; rfl, ?_, ?_⟩
  · rw [hops, List.foldl_append, List.foldl_cons, g1, b1, a1]; rfl
  · rw [hops, List.foldl_append, List.foldl_cons, g2, b2, a2]; rfl

/-- **C90.** The answers on the page are those of the tool: for a block the preprocessor has answered, the page uses for
each operation the answer the tool gave to this operation on this program. -/
theorem C90_tool (w : World) (b : Block) (r : Responses) (hr : runAquascope w b = .ok r) (op : List Char)
    (ho : op ∈ b.operations) : ∃ j, (render b r).responses op = some j ∧ Preproc.Spec.Answered w b op j := by
  obtain ⟨-, h2, -⟩ := (C12_success_iff w b r).1 hr
  obtain ⟨j, h3, h4⟩ := h2 op ho
  exact ⟨j, h4, h3⟩

/-- **C90.** The server is asked exactly for the operations without a usable answer, in order. -/
theorem C90_asked (D : Draws) (h : Html) (e : Ed) (he : openBlock D h = some e) :
    e.asked = h.operations.filter (fun op => falsy (h.responses op)) := by
  unfold openBlock at he
  split at he
  · simp at he
  · simp only [Option.some.injEq] at he
    subst he
    rw [ops_asked]
    rfl

/-- Two blocks, the first with both operations. -/
example : (openPage drawsAll [render (demoBlock' [opInterpreter, opPermissions] []) demoResponses,
      render (demoBlock' [opPermissions] []) demoResponses]).1.map (fun e => e.drawn.length) = [2, 1] := by
  decide +kernel

/-- The second block has no program. -/
example : (openPage drawsAll [render (demoBlock' [opInterpreter] []) demoResponses,
      render { demoBlock' [opInterpreter] [] with code := [] } demoResponses,
      render (demoBlock' [opPermissions] []) demoResponses]).1.length = 1 := by
  decide +kernel

/-- The hypotheses of `C90_operations_partial` for a block with both operations. -/
example : List.Forall₂ (Shows drawsAll (render (demoBlock' [opInterpreter, opPermissions] []) demoResponses))
    [opInterpreter, opPermissions]
    [.diagram (.str ['t']) [] false false, .perms [.str ['p'], .str ['q']] false false] :=
  .cons (.interpreter _ _ rfl rfl rfl) (.cons (.permissions _ _ rfl
    (.cons ⟨_, rfl, rfl⟩ (.cons ⟨_, rfl, rfl⟩ .nil)) rfl) .nil)

/-! ## Errors, hidden lines and the banner -/

/-- The results of the bodies that succeeded and the errors of the others, each in order. -/
inductive Splits : List Json → List Json → List (Option Json) → Prop
  | nil : Splits [] [] []
  | good {fs x js gs bs} : fs.lookup kOk = some x → Splits js gs bs → Splits (.obj fs :: js) (x :: gs) bs
  | bad {fs js gs bs} : fs.lookup kOk = none → Splits js gs bs → Splits (.obj fs :: js) gs (fs.lookup kErr :: bs)

theorem splitResults_of {js gs : List Json} {bs : List (Option Json)} (h : Splits js gs bs) :
    splitResults js = some (gs, bs) := by
  induction h with
  | nil => rfl
  | good hk _ ih => simp [splitResults, okIn, hk, ih]
  | bad hk _ ih => simp [splitResults, okIn, hk, ih, Json.get]

/-- What an operation of a block that does not hide its code does with a usable answer: the drawings, the errors
reported and whether it ends with an exception. -/
inductive Outcome (D : Draws) (h : Html) : List Char → List Drawing → List (Option Json) → Bool → Prop
  | diagram {fs t} : h.responses opInterpreter = some (.obj fs) → fs.lookup kOk = some t →
      D.trace h.code t h.annotations.stateLocations = true →
      Outcome D h opInterpreter [.diagram t h.annotations.stateLocations (truthy (h.config kHorizontal))
        (truthy (h.config kConcreteTypes))] [] false
  | throws {fs t} : h.responses opInterpreter = some (.obj fs) → fs.lookup kOk = some t →
      D.trace h.code t h.annotations.stateLocations = false → Outcome D h opInterpreter [] [] true
  | error {fs} : h.responses opInterpreter = some (.obj fs) → fs.lookup kOk = none →
      Outcome D h opInterpreter [] [fs.lookup kErr] false
  | perms {js gs bs} : h.responses opPermissions = some (.arr js) → Splits js gs bs →
      D.perms h.code gs h.annotations = true →
      Outcome D h opPermissions [.perms gs (isTrue (h.config kStepper)) (isTrue (h.config kBoundaries))] bs false
  | permsThrow {js gs bs} : h.responses opPermissions = some (.arr js) → Splits js gs bs →
      D.perms h.code gs h.annotations = false → Outcome D h opPermissions [] bs true

theorem op_outcome {D : Draws} {h : Html} {e : Ed} {op : List Char} {ds : List Drawing} {rs : List (Option Json)}
    {x : Bool} (ho : Outcome D h op ds rs x) (hu : e.unmounted = false) (hh : truthy (h.config kHideCode) = false) :
    (e.renderOperation D h op).drawn = e.drawn ++ ds ∧ (e.renderOperation D h op).reports = e.reports ++ rs ∧
    (e.renderOperation D h op).rejected = e.rejected ++ (if x then [op] else []) ∧
    (e.renderOperation D h op).unmounted = false := by
  obtain ⟨c1, c2, c3, c4, c5⟩ := common_drawn e h
  have hne : opPermissions ≠ opInterpreter := by decide
  cases ho with
  | diagram hr hk hd | throws hr hk hd =>
    simp [Ed.renderOperation, hr, falsy, c2, hu, okIn, hk, Ed.renderInterpreter, hd, hh, c1, c3, c5]
  | error hr hk => simp [Ed.renderOperation, hr, falsy, c2, hu, okIn, hk, c1, c3, c5, Json.get]
  | perms hr hk hd | permsThrow hr hk hd =>
    simp [Ed.renderOperation, hr, falsy, c2, hu, hne, splitResults_of hk, hd, c1, c3, c5]

/-- The outcomes of the operations, one after the other: all drawings, all reports, and the operations that ended with
an exception. -/
inductive Outcomes (D : Draws) (h : Html) : List (List Char) → List Drawing → List (Option Json) → List (List Char) → Prop
  | nil : Outcomes D h [] [] [] []
  | fine {op ops d ds r rs x} : Outcome D h op d r false → Outcomes D h ops ds rs x →
      Outcomes D h (op :: ops) (d ++ ds) (r ++ rs) x
  | thrown {op ops d ds r rs x} : Outcome D h op d r true → Outcomes D h ops ds rs x →
      Outcomes D h (op :: ops) (d ++ ds) (r ++ rs) (op :: x)

theorem ops_outcome {D : Draws} {h : Html} {ops : List (List Char)} {ds : List Drawing} {rs : List (Option Json)}
    {x : List (List Char)} (ho : Outcomes D h ops ds rs x) (hh : truthy (h.config kHideCode) = false) (e : Ed)
    (hu : e.unmounted = false) :
    (ops.foldl (Ed.renderOperation D h) e).drawn = e.drawn ++ ds ∧
    (ops.foldl (Ed.renderOperation D h) e).reports = e.reports ++ rs ∧
    (ops.foldl (Ed.renderOperation D h) e).rejected = e.rejected ++ x := by
  induction ho generalizing e with
  | nil => simp
  | fine a _ ih | thrown a _ ih =>
    obtain ⟨a1, a2, a3, a4⟩ := op_outcome a hu hh
    obtain ⟨b1, b2, b3⟩ := ih _ a4
    simp [b1, b2, b3, a1, a2, a3]

/-- **C90.** An answer that is an error is reported with its text, and an answer about several bodies is drawn for the
bodies that succeeded while the errors of the others are reported, in order. An operation that cannot be drawn
does not keep the later ones from being drawn. -/
theorem C90_outcomes (D : Draws) (h : Html) (ds : List Drawing) (rs : List (Option Json)) (x : List (List Char))
    (hc : h.code ≠ []) (hh : truthy (h.config kHideCode) = false) (ho : Outcomes D h h.operations ds rs x) :
    ∃ e, openBlock D h = some e ∧ e.drawn = ds ∧ e.reports = rs ∧ e.rejected = x := by
  have hne : h.code.isEmpty = false := by
    cases hh : h.code with
    | nil => exact absurd hh hc
    | cons => rfl
  obtain ⟨a1, a2, a3⟩ := ops_outcome ho hh { code := h.code } rfl
  refine ⟨_, by simp only [openBlock, hne]; rfl, ?_, ?_, ?_⟩
  · rw [a1]; rfl
  · rw [a2]; rfl
  · rw [a3]; rfl

/-- The lines, the button and the banner after an operation. -/
theorem op_lines (D : Draws) (h : Html) (e : Ed) (op : List Char) :
    (e.renderOperation D h op).hidden =
      e.hidden ++ (if falsy (h.responses op) then [] else h.annotations.hiddenLines) ∧
    (e.renderOperation D h op).eye =
      (e.eye || (!falsy (h.responses op) && !h.annotations.hiddenLines.isEmpty)) ∧
    (e.renderOperation D h op).banner =
      (e.banner || (!falsy (h.responses op) && truthy (h.config kShouldFail))) := by
  have hc : (e.common h).hidden = e.hidden ++ h.annotations.hiddenLines ∧
      (e.common h).eye = (e.eye || !h.annotations.hiddenLines.isEmpty) := by
    unfold Ed.common
    dsimp only
    cases hl : h.annotations.hiddenLines <;> split <;> simp_all
  have hb := common_banner e h
  cases hr : h.responses op with
  | none => simp [Ed.renderOperation, hr, falsy]
  | some j =>
    cases hf : falsy (some j) with
    | true => simp [Ed.renderOperation, hr, hf]
    | false =>
      simp only [Ed.renderOperation, hr, hf, Bool.false_eq_true, if_false, Ed.renderInterpreter, Bool.not_false,
        Bool.true_and]
      rw [← hc.1, ← hc.2, ← hb]
      repeat' split
      all_goals exact ⟨rfl, rfl, rfl⟩

/-- **C90.** As soon as one operation has a usable answer, exactly the lines marked in the program are hidden, there is a
button to show them iff there are any, and the banner is there iff the block has the option; without any answer
nothing of this happens. -/
theorem C90_lines (D : Draws) (h : Html) (e : Ed) (he : openBlock D h = some e) :
    (∀ n, n ∈ e.hidden ↔ n ∈ h.annotations.hiddenLines ∧ ∃ op ∈ h.operations, falsy (h.responses op) = false) ∧
    (e.eye = true ↔ h.annotations.hiddenLines ≠ [] ∧ ∃ op ∈ h.operations, falsy (h.responses op) = false) ∧
    (e.banner = true ↔ truthy (h.config kShouldFail) = true ∧ ∃ op ∈ h.operations, falsy (h.responses op) = false) := by
  unfold openBlock at he
  split at he
  · simp at he
  · simp only [Option.some.injEq] at he
    subst he
    have : ∀ (ops : List (List Char)) (e : Ed),
        (∀ n, n ∈ (ops.foldl (Ed.renderOperation D h) e).hidden ↔ n ∈ e.hidden ∨
          n ∈ h.annotations.hiddenLines ∧ ∃ op ∈ ops, falsy (h.responses op) = false) ∧
        ((ops.foldl (Ed.renderOperation D h) e).eye = true ↔ e.eye = true ∨
          h.annotations.hiddenLines ≠ [] ∧ ∃ op ∈ ops, falsy (h.responses op) = false) ∧
        ((ops.foldl (Ed.renderOperation D h) e).banner = true ↔ e.banner = true ∨
          truthy (h.config kShouldFail) = true ∧ ∃ op ∈ ops, falsy (h.responses op) = false) := by
      intro ops
      induction ops with
      | nil => simp
      | cons op ops ih =>
        intro e
        obtain ⟨i1, i2, i3⟩ := ih (e.renderOperation D h op)
        obtain ⟨l1, l2, l3⟩ := op_lines D h e op
        rw [List.foldl_cons]
        clear ih
        refine ⟨fun n => ?_, ?_, ?_⟩
        · rw [i1, l1]
          cases hf : falsy (h.responses op) <;> simp [hf] <;> grind
        · rw [i2, l2]
          cases hf : falsy (h.responses op) <;> cases hl : h.annotations.hiddenLines <;> simp [hf]
        · rw [i3, l3]
          cases hf : falsy (h.responses op) <;> cases ht : truthy (h.config kShouldFail) <;> simp [hf]
    obtain ⟨t1, t2, t3⟩ := this h.operations { code := h.code }
    refine ⟨fun n => ?_, ?_, ?_⟩
    · rw [t1]; simp
    · rw [t2]; simp
    · rw [t3]; simp

/-- An answer about three bodies of which the second failed. -/
def mixedHtml : Html :=
  { render (demoBlock' [opPermissions] []) (fun op => if op = opPermissions then
      some (.arr [.obj [(kOk, .str ['p'])], .obj [(kErr, .str ['e'])], .obj [(kOk, .str ['q'])]]) else none) with
    annotations := { hiddenLines := [3] } }

example : Outcomes drawsAll mixedHtml [opPermissions] ([.perms [.str ['p'], .str ['q']] false false] ++ [])
    ([some (.str ['e'])] ++ []) [] :=
  .fine (.perms rfl (.good rfl (.bad rfl (.good rfl .nil))) rfl) .nil

example : (openBlock drawsAll mixedHtml).map (fun e => (e.hidden, e.eye, e.banner, e.reports.length)) =
    some ([3], true, false, 1) := by decide +kernel

end Verif.Embed
